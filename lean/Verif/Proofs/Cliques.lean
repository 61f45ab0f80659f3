import Verif.Proofs.Junction
import Mathlib.Logic.Relation

/-! What `triangulate` returns for the moral graph of a network. -/

namespace PyBBN

/-- everything later stages need to know about the cliques of a network -/
structure CliqueSpec (b : Bbn) (cs : List Clique) : Prop where
  sub : ∀ c ∈ cs, ∀ u ∈ c.nodes, u ∈ b.vars
  nodup : ∀ c ∈ cs, c.nodeIds.Nodup
  ne : ∀ c ∈ cs, c.nodeIds ≠ []
  anti : Antichain cs
  covers : ∀ Q : Finset Int, Q.Nonempty → (∀ i ∈ Q, i ∈ vids b.vars) →
    (∀ x ∈ Q, ∀ y ∈ Q, x ≠ y → MoralAdj b x y) → ∃ c ∈ cs, Q ⊆ c.fs
  jorder : ∃ F : List (Finset Int), JOrder F ∧ F.Perm (cs.map Clique.fs)
  comp : ∀ c ∈ cs, ∀ x ∈ c.nodeIds, ∀ y ∈ c.nodeIds, Relation.EqvGen (MoralAdj b) x y

/-- a clique of the elimination game lies in one component -/
theorem ElimSeq.comp {S : List Variable} {R : Int → Int → Prop} {cs : List Clique} (h : ElimSeq S R cs) :
    ∀ c ∈ cs, ∀ x ∈ c.nodeIds, ∀ y ∈ c.nodeIds, Relation.EqvGen R x y := by
  induction h with
  | nil R => simp
  | @cons S R R' cs v c hv hsub hnd hmem hmin hR ht ih =>
    have hv' : ∀ x ∈ c.nodeIds, Relation.EqvGen R v.id x := by
      intro x hx
      rcases (hmem x).1 hx with rfl | hx
      · exact .refl _
      · exact .rel _ _ hx
    have hRR : ∀ x y, Relation.EqvGen R' x y → Relation.EqvGen R x y := by
      intro x y hxy
      induction hxy with
      | rel x y h =>
        rcases ((hR x y).1 h).2.2.2 with h | ⟨h1, h2⟩
        · exact .rel _ _ h
        · exact .trans _ _ _ (.symm _ _ (.rel _ _ h1)) (.rel _ _ h2)
      | refl x => exact .refl _
      | symm x y _ ih => exact .symm _ _ ih
      | trans x y z _ _ ih1 ih2 => exact .trans _ _ _ ih1 ih2
    intro d hd x hx y hy
    rcases List.mem_cons.1 hd with rfl | hd
    · exact .trans _ _ _ (.symm _ _ (hv' x hx)) (hv' y hy)
    · exact hRR _ _ (ih d hd x hx y hy)

theorem MoralAdj.eqv {b : Bbn} {x y : Int} (h : Relation.EqvGen (MoralAdj b) x y) :
    Relation.EqvGen (fun p c => p ∈ ddGet b.parents c) x y := by
  induction h with
  | rel x y h =>
    rcases h.2 with h | h | ⟨z, h1, h2⟩
    · exact .rel _ _ h
    · exact .symm _ _ (.rel _ _ h)
    · exact .trans _ z _ (.rel _ _ h1) (.symm _ _ (.rel _ _ h2))
  | refl x => exact .refl _
  | symm x y _ ih => exact .symm _ _ ih
  | trans x y z _ _ ih1 ih2 => exact .trans _ _ _ ih1 ih2

theorem antichain_nodup {cs : List Clique} (h : Antichain cs) : (cs.map Clique.fs).Nodup := by
  unfold Antichain at h
  rw [List.Nodup, List.pairwise_map]
  refine h.imp ?_
  intro a b hab e
  exact hab.1 (e ▸ Finset.Subset.refl _)

theorem antichain_eq {cs : List Clique} (h : Antichain cs) {a b : Clique} (ha : a ∈ cs) (hb : b ∈ cs)
    (hab : a.fs ⊆ b.fs) : a = b := by
  by_contra hne
  exact (pairwise_forall (fun a b h => ⟨h.2, h.1⟩) h a ha b hb hne).1 hab

theorem moralAdj_relOn {b : Bbn} (h : BbnInv b) : RelOn b.vars (MoralAdj b) := by
  have hm := moralize_spec h
  refine ⟨?_, ?_, ?_⟩
  · intro x y hxy
    rw [← hm.2.2.2] at hxy ⊢
    exact hm.1.sym _ _ hxy
  · intro x hx
    exact hx.1 rfl
  · intro x y hxy
    rw [← hm.2.2.2] at hxy
    have := (hm.1.ginv.emNodes _ _ hxy).1
    rwa [hm.2.2.1, nodeDict_keys] at this

theorem triangulate_spec (it : SetIter Int) {b : Bbn} (h : BbnInv b) :
    CliqueSpec b (Triangulator.triangulate it (moralize b)).1 ∧
    (∀ x y, emRel (Triangulator.triangulate it (moralize b)).2 x y ↔
      x ≠ y ∧ ∃ c ∈ (Triangulator.triangulate it (moralize b)).1, x ∈ c.nodeIds ∧ y ∈ c.nodeIds) ∧
    (Triangulator.triangulate it (moralize b)).2.nodes = (moralize b).nodes ∧
    UInv (Triangulator.triangulate it (moralize b)).2 := by
  obtain ⟨m1, m2, m3, m4⟩ := moralize_spec h
  obtain ⟨d1, d2, d3⟩ := duplicate_spec m1 m2 (vars_nodup h) m3
  have hlen : b.vars.length = (Triangulator.duplicate (moralize b)).nodes.length := by
    rw [d2]; simp [nodeDict]
  obtain ⟨cs, k1, k2, k3, k4, k5, k6, k7⟩ := loop_spec it _ [] (moralize b) (Triangulator.duplicate (moralize b)) b.vars
    m1 d1 d2 (vars_nodup h) hlen (fun x y hxy => (d3 x y).1 hxy) (by rw [m3, nodeDict_keys]; exact fun i hi => hi)
  have hrel : emRel (Triangulator.duplicate (moralize b)) = MoralAdj b := by
    funext x y; exact propext ((d3 x y).trans (m4 x y))
  rw [hrel] at k1
  obtain ⟨r1, _, r3, r4⟩ := k1.record [] (by simp [Antichain]) (by simp)
  have htri : Triangulator.triangulate it (moralize b) =
      Triangulator.loop it (Triangulator.duplicate (moralize b)).nodes.length [] (moralize b)
        (Triangulator.duplicate (moralize b)) := rfl
  rw [htri, k2]
  set rc := cs.foldl record [] with hrc
  have hin : ∀ c ∈ rc, c ∈ cs := by
    intro c hc
    rcases r3 c hc with h | h
    · simp at h
    · exact h
  have hcov := k1.covers
  refine ⟨⟨?_, ?_, ?_, r1, ?_, ?_, fun c hc => k1.comp c (hin c hc)⟩, ?_, k5, k7⟩
  · intro c hc; exact (k1.sub c (hin c hc)).1
  · intro c hc; exact (k1.sub c (hin c hc)).2.1
  · intro c hc; exact (k1.sub c (hin c hc)).2.2
  · intro Q h1 h2 h3
    obtain ⟨c, hc, hQ⟩ := hcov Q h1 h2 h3
    obtain ⟨d, hd, hcd⟩ := r4 c hc
    exact ⟨d, hd, hQ.trans hcd⟩
  · obtain ⟨F, f1, f2, f3, f4, f5⟩ := k1.junction (moralAdj_relOn h)
    refine ⟨F, f1, ?_⟩
    have hFeq : ∀ a ∈ F, ∀ b ∈ F, a ⊆ b → a = b := by
      intro a ha b hb hab
      by_contra hne
      exact (pairwise_forall (fun a b h => ⟨h.2, h.1⟩) f2 a ha b hb hne).1 hab
    have hFnd : F.Nodup := by
      refine List.Pairwise.imp ?_ f2
      intro a b hab e
      exact hab.1 (e ▸ Finset.Subset.refl _)
    rw [List.perm_ext_iff_of_nodup hFnd (antichain_nodup r1)]
    intro A
    rw [List.mem_map]
    constructor
    · intro hA
      obtain ⟨c, hc, rfl⟩ := f3 A hA
      obtain ⟨d, hd, hcd⟩ := r4 c hc
      obtain ⟨A', hA', hdA⟩ := f4 d (hin d hd)
      have e := hFeq _ hA _ hA' (hcd.trans hdA)
      exact ⟨d, hd, Finset.Subset.antisymm (e ▸ hdA) hcd⟩
    · rintro ⟨d, hd, rfl⟩
      obtain ⟨A, hA, hdA⟩ := f4 d (hin d hd)
      obtain ⟨c, hc, rfl⟩ := f3 A hA
      obtain ⟨d', hd', hcd⟩ := r4 c hc
      have e := antichain_eq r1 hd hd' (hdA.trans hcd)
      subst e
      rwa [Finset.Subset.antisymm hdA hcd]
  · intro x y
    constructor
    · intro hxy
      have hcase := k6 x y hxy
      have key : ∃ c ∈ cs, x ∈ c.nodeIds ∧ y ∈ c.nodeIds := by
        rcases hcase with h1 | ⟨_, h1⟩
        · rw [m4] at h1
          have hmemx := (moralAdj_relOn h).mem _ _ h1
          have hmemy := (moralAdj_relOn h).mem _ _ ((moralAdj_relOn h).sym _ _ h1)
          obtain ⟨c, hc, hQ⟩ := hcov {x, y} ⟨x, by simp⟩ (by
            intro i hi
            simp at hi
            rcases hi with rfl | rfl <;> assumption) (by
            intro a ha c hc hac
            simp at ha hc
            rcases ha with rfl | rfl <;> rcases hc with rfl | rfl
            · exact absurd rfl hac
            · exact h1
            · exact (moralAdj_relOn h).sym _ _ h1
            · exact absurd rfl hac)
          exact ⟨c, hc, (c.mem_fs _).1 (hQ (by simp)), (c.mem_fs _).1 (hQ (by simp))⟩
        · exact h1
      have hne : x ≠ y := by
        rintro rfl
        rcases hcase with h1 | h1
        · exact m1.irr _ h1
        · exact h1.1 rfl
      refine ⟨hne, ?_⟩
      obtain ⟨c, hc, h1, h2⟩ := key
      obtain ⟨d, hd, hcd⟩ := r4 c hc
      exact ⟨d, hd, (d.mem_fs _).1 (hcd ((c.mem_fs _).2 h1)), (d.mem_fs _).1 (hcd ((c.mem_fs _).2 h2))⟩
    · rintro ⟨hne, c, hc, h1, h2⟩
      exact k4 c (hin c hc) x h1 y h2 hne

/-- a node and its parents are pairwise adjacent in the moral graph -/
theorem family_covered {b : Bbn} (h : BbnInv b) {cs : List Clique} (hc : CliqueSpec b cs) {v : Variable}
    (hv : v ∈ b.vars) : ∃ c ∈ cs, ∀ i ∈ v.id :: ddGet b.parents v.id, i ∈ c.nodeIds := by
  obtain ⟨c, hcm, hQ⟩ := hc.covers (v.id :: ddGet b.parents v.id).toFinset ⟨v.id, by simp⟩ (by
    intro i hi
    simp at hi
    rcases hi with rfl | hi
    · exact List.mem_map_of_mem hv
    · rw [vids_vars h]
      exact (h.ginv.emNodes _ _ ((h.par _ _).1 hi)).1) (by
    intro x hx y hy hxy
    simp at hx hy
    refine ⟨hxy, ?_⟩
    rcases hx with rfl | hx <;> rcases hy with rfl | hy
    · exact absurd rfl hxy
    · exact Or.inr (Or.inl hy)
    · exact Or.inl hx
    · exact Or.inr (Or.inr ⟨_, hx, hy⟩))
  refine ⟨c, hcm, ?_⟩
  intro i hi
  exact (c.mem_fs _).1 (hQ (by simpa using hi))

end PyBBN
