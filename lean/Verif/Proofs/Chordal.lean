import Verif.Proofs.Dirac
import Verif.Proofs.Cliques

/-! The filled-in graph of the elimination game. -/

namespace PyBBN
open Chord

/-- in a common clique -/
def Filled (cs : List Clique) (x y : Int) : Prop := x ≠ y ∧ ∃ c ∈ cs, x ∈ c.nodeIds ∧ y ∈ c.nodeIds

theorem Filled.symm {cs : List Clique} {x y : Int} (h : Filled cs x y) : Filled cs y x :=
  ⟨h.1.symm, h.2.elim fun c hc => ⟨c, hc.1, hc.2.2, hc.2.1⟩⟩

theorem ElimSeq.filled_of_rel {S : List Variable} {R : Int → Int → Prop} {cs : List Clique} (h : ElimSeq S R cs) (hR : RelOn S R) {x y : Int}
    (hxy : R x y) : Filled cs x y := by
  have hne : x ≠ y := by rintro rfl; exact hR.irr _ hxy
  obtain ⟨c, hc, hQ⟩ := h.covers {x, y} ⟨x, by simp⟩ (by
    intro i hi
    simp at hi
    rcases hi with rfl | rfl
    · exact hR.mem _ _ hxy
    · exact hR.mem _ _ (hR.sym _ _ hxy)) (by
    intro a ha c hc hac
    simp at ha hc
    rcases ha with rfl | rfl <;> rcases hc with rfl | rfl
    · exact absurd rfl hac
    · exact hxy
    · exact hR.sym _ _ hxy
    · exact absurd rfl hac)
  exact ⟨hne, c, hc, (c.mem_fs _).1 (hQ (by simp)), (c.mem_fs _).1 (hQ (by simp))⟩

/-- what the first step does to the filled-in graph -/
theorem ElimSeq.filled_step {S : List Variable} {R R' : Int → Int → Prop} {cs : List Clique} {v : Variable} {c : Clique}
    (hmem : ∀ i, i ∈ c.nodeIds ↔ i = v.id ∨ R v.id i)
    (hR : ∀ x y, R' x y ↔ x ≠ v.id ∧ y ≠ v.id ∧ x ≠ y ∧ (R x y ∨ (R v.id x ∧ R v.id y)))
    (ht : ElimSeq (S.filter (fun u => decide (u.id ≠ v.id))) R' cs) (hS : RelOn S R) :
    (∀ y, Filled (c :: cs) v.id y → y ∈ c.nodeIds) ∧
    (∀ x y, x ≠ v.id → y ≠ v.id → Filled (c :: cs) x y → Filled cs x y) := by
  constructor
  · rintro y ⟨_, d, hd, h1, h2⟩
    rcases List.mem_cons.1 hd with rfl | hd
    · exact h2
    · have := (ht.sub d hd).1
      obtain ⟨u, hu, e⟩ := List.mem_map.1 h1
      have := this u hu
      simp [e] at this
  · rintro x y hx hy ⟨hne, d, hd, h1, h2⟩
    rcases List.mem_cons.1 hd with rfl | hd
    · refine ht.filled_of_rel (hS.step v hR) ((hR x y).2 ⟨hx, hy, hne, Or.inr ⟨?_, ?_⟩⟩)
      · exact ((hmem x).1 h1).resolve_left hx
      · exact ((hmem y).1 h2).resolve_left hy
    · exact ⟨hne, d, hd, h1, h2⟩

/-- every complete set of the filled-in graph is contained in a clique that was formed -/
theorem ElimSeq.filled_covers {S : List Variable} {R : Int → Int → Prop} {cs : List Clique} (h : ElimSeq S R cs) :
    RelOn S R → ∀ Q : Int → Prop, (∃ i, Q i) → (∀ i, Q i → i ∈ vids S) → Complete (Filled cs) Q → ∃ c ∈ cs, ∀ i, Q i → i ∈ c.nodeIds := by
  induction h with
  | nil R =>
    rintro _ Q ⟨i, hi⟩ hsub _
    exact absurd (hsub i hi) (by simp [vids])
  | @cons S R R' cs v c hv hsub hnd hmem hmin hR ht ih =>
    intro hS Q hne hQS hQ
    obtain ⟨k1, k2⟩ := ElimSeq.filled_step hmem hR ht hS
    by_cases hvQ : Q v.id
    · refine ⟨c, by simp, ?_⟩
      intro i hi
      by_cases e : i = v.id
      · exact (hmem i).2 (Or.inl e)
      · exact k1 i (hQ _ _ hvQ hi (Ne.symm e))
    · have hnv : ∀ i, Q i → i ≠ v.id := fun i hi e => hvQ (e ▸ hi)
      obtain ⟨d, hd, hdQ⟩ := ih (hS.step v hR) Q hne (fun i hi => (vids_filter S v.id i).2 ⟨hQS i hi, hnv i hi⟩)
        (fun x y hx hy hxy => k2 x y (hnv x hx) (hnv y hy) (hQ x y hx hy hxy))
      exact ⟨d, by simp [hd], hdQ⟩

/-- the filled-in graph is chordal -/
theorem ElimSeq.filled_chordal {S : List Variable} {R : Int → Int → Prop} {cs : List Clique} (h : ElimSeq S R cs) :
    RelOn S R → Chordal (Filled cs) := by
  induction h with
  | nil R =>
    rintro _ n c hn ⟨_, h2, _⟩
    obtain ⟨_, d, hd, _⟩ := h2 0 (by omega)
    simp at hd
  | @cons S R R' cs v c hv hsub hnd hmem hmin hR ht ih =>
    intro hS n f hn ⟨h1, h2, h3⟩
    obtain ⟨k1, k2⟩ := ElimSeq.filled_step hmem hR ht hS
    have hchord : ∀ i j, i < n → j < n → i ≠ j → f i ∈ c.nodeIds → f j ∈ c.nodeIds → Filled (c :: cs) (f i) (f j) := by
      intro i j hi hj hij hi' hj'
      exact ⟨fun e => hij (h1 i hi j hj e), c, by simp, hi', hj'⟩
    by_cases hvc : ∃ k < n, f k = v.id
    · obtain ⟨k, hk, e⟩ := hvc
      have hnext : ∀ y, Filled (c :: cs) (f k) y → y ∈ c.nodeIds := by rw [e]; exact k1
      by_cases hk0 : k = 0
      · subst hk0
        have a1 := hnext _ (h2 0 (by omega))
        have a2 := hnext _ h3.symm
        exact ⟨1, n - 1, by omega, by omega, by omega, hchord _ _ (by omega) (by omega) (by omega) a1 a2⟩
      · have a1 := h2 (k - 1) (by omega)
        rw [show k - 1 + 1 = k by omega] at a1
        have a1 := hnext _ a1.symm
        by_cases hkn : k = n - 1
        · subst hkn
          have a2 := hnext _ h3
          exact ⟨0, n - 1 - 1, by omega, by omega, by omega, hchord _ _ (by omega) (by omega) (by omega) a2 a1⟩
        · have a2 := hnext _ (h2 k (by omega))
          exact ⟨k - 1, k + 1, by omega, by omega, by omega, hchord _ _ (by omega) (by omega) (by omega) a1 a2⟩
    · push Not at hvc
      obtain ⟨i, j, b1, b2, b3, b4⟩ := ih (hS.step v hR) n f hn ⟨h1, fun i hi => k2 _ _ (hvc _ (by omega)) (hvc _ hi) (h2 i hi),
        k2 _ _ (hvc _ (by omega)) (hvc _ (by omega)) h3⟩
      obtain ⟨hne, d, hd, c1, c2⟩ := b4
      exact ⟨i, j, b1, b2, b3, hne, d, by simp [hd], c1, c2⟩

theorem missing_zero {S : List Variable} {R : Int → Int → Prop} {v : Variable} :
    Elim.missing S R v = 0 ↔ ∀ a ∈ S, ∀ b ∈ S, R v.id a.id → R v.id b.id → a.id ≠ b.id → R a.id b.id := by
  classical
  unfold Elim.missing Elim.nbrs
  rw [List.length_eq_zero_iff, List.flatMap_eq_nil_iff]
  constructor
  · intro h a ha b hb h1 h2 hne
    by_contra hno
    have := h a (by simp [ha, h1])
    rw [List.filter_eq_nil_iff] at this
    exact this b (by simp [hb, h2]) (by simp [hne, hno])
  · intro h a ha
    rw [List.filter_eq_nil_iff]
    intro b hb
    simp only [List.mem_filter, decide_eq_true_eq] at ha hb
    simp only [decide_eq_true_eq, not_and, not_not]
    exact fun hne => h a ha.1 b hb.1 ha.2 hb.2 hne

/-- greedy elimination adds no edge to a chordal graph -/
theorem ElimSeq.no_fill {S : List Variable} {R : Int → Int → Prop} {cs : List Clique} (h : ElimSeq S R cs) :
    RelOn S R → Chordal R → ∀ x y, Filled cs x y → R x y := by
  classical
  induction h with
  | nil R =>
    rintro _ _ x y ⟨_, d, hd, _⟩
    simp at hd
  | @cons S R R' cs v c hv hsub hnd hmem hmin hR ht ih =>
    intro hS hch
    obtain ⟨k1, k2⟩ := ElimSeq.filled_step hmem hR ht hS
    have hzero : Elim.missing S R v = 0 := by
      obtain ⟨w, hw, hsim⟩ := (exists_simplicial hS.sym hS.irr hch _ (vids S).toFinset (le_refl _)).1
        ⟨v.id, by simp only [List.mem_toFinset]; exact List.mem_map_of_mem hv⟩
      obtain ⟨u, hu, e⟩ := List.mem_map.1 (List.mem_toFinset.1 hw)
      have hu0 : Elim.missing S R u = 0 := by
        rw [missing_zero]
        intro a ha b hb h1 h2 hne
        refine hsim _ ?_ _ ?_ (e ▸ h1) (e ▸ h2) hne
        · exact List.mem_toFinset.2 (List.mem_map_of_mem ha)
        · exact List.mem_toFinset.2 (List.mem_map_of_mem hb)
      by_cases huv : u.id = v.id
      · rw [missing_zero] at hu0 ⊢
        rw [← huv]; exact hu0
      · rcases hmin u hu huv with h | h
        · omega
        · omega
    have hsimp : ∀ x y, R v.id x → R v.id y → x ≠ y → R x y := by
      intro x y hx hy hxy
      obtain ⟨a, ha, rfl⟩ := List.mem_map.1 (hS.mem _ _ (hS.sym _ _ hx))
      obtain ⟨b, hb, rfl⟩ := List.mem_map.1 (hS.mem _ _ (hS.sym _ _ hy))
      exact missing_zero.1 hzero a ha b hb hx hy hxy
    have hR' : ∀ x y, R' x y ↔ x ≠ v.id ∧ y ≠ v.id ∧ R x y := by
      intro x y
      rw [hR]
      constructor
      · rintro ⟨h1, h2, h3, h4 | h4⟩
        · exact ⟨h1, h2, h4⟩
        · exact ⟨h1, h2, hsimp x y h4.1 h4.2 h3⟩
      · rintro ⟨h1, h2, h3⟩
        exact ⟨h1, h2, fun e => hS.irr _ (e ▸ h3), Or.inl h3⟩
    have hch' : Chordal R' := by
      rintro n f hn ⟨g1, g2, g3⟩
      obtain ⟨i, j, b1, b2, b3, b4⟩ := hch n f hn ⟨g1, fun i hi => ((hR' _ _).1 (g2 i hi)).2.2, ((hR' _ _).1 g3).2.2⟩
      have hnv : ∀ k < n, f k ≠ v.id := by
        intro k hk
        by_cases hkn : k + 1 < n
        · exact ((hR' _ _).1 (g2 k hkn)).1
        · rw [show k = n - 1 by omega]; exact ((hR' _ _).1 g3).1
      exact ⟨i, j, b1, b2, b3, (hR' _ _).2 ⟨hnv i (by omega), hnv j b2, b4⟩⟩
    intro x y hxy
    by_cases hx : x = v.id
    · subst hx
      exact ((hmem y).1 (k1 y hxy)).resolve_left (fun e => hxy.1 e.symm)
    · by_cases hy : y = v.id
      · subst hy
        exact hS.sym _ _ (((hmem x).1 (k1 x hxy.symm)).resolve_left hx)
      · exact ((hR' x y).1 (ih (hS.step v hR) hch' x y (k2 x y hx hy hxy))).2.2

/-- the cliques that were formed, behind those that are returned -/
theorem triangulate_elim (it : SetIter Int) {b : Bbn} (h : BbnInv b) :
    ∃ cs, ElimSeq b.vars (MoralAdj b) cs ∧ (∀ x y, Filled (Triangulator.triangulate it (moralize b)).1 x y ↔ Filled cs x y) ∧
      ∀ c ∈ cs, ∃ d ∈ (Triangulator.triangulate it (moralize b)).1, c.fs ⊆ d.fs := by
  obtain ⟨m1, m2, m3, m4⟩ := moralize_spec h
  obtain ⟨d1, d2, d3⟩ := duplicate_spec m1 m2 (vars_nodup h) m3
  have hlen : b.vars.length = (Triangulator.duplicate (moralize b)).nodes.length := by
    rw [d2]; simp [nodeDict]
  obtain ⟨cs, k1, k2, k3, k4, k5, k6, k7⟩ := loop_spec it _ [] (moralize b) (Triangulator.duplicate (moralize b)) b.vars
    m1 d1 d2 (vars_nodup h) hlen (fun x y hxy => (d3 x y).1 hxy) (by rw [m3, nodeDict_keys]; exact fun i hi => hi)
  have hrel : emRel (Triangulator.duplicate (moralize b)) = MoralAdj b := by
    funext x y; exact propext ((d3 x y).trans (m4 x y))
  rw [hrel] at k1
  obtain ⟨r1, _, r3, r4⟩ := k1.record [] (by simp [Antichain]) (by simp)
  have htri : Triangulator.triangulate it (moralize b) =
      Triangulator.loop it (Triangulator.duplicate (moralize b)).nodes.length [] (moralize b)
        (Triangulator.duplicate (moralize b)) := rfl
  refine ⟨cs, k1, ?_⟩
  rw [htri, k2]
  refine ⟨?_, r4⟩
  intro x y
  constructor
  · rintro ⟨hne, c, hc, h1, h2⟩
    refine ⟨hne, c, ?_, h1, h2⟩
    rcases r3 c hc with h | h
    · simp at h
    · exact h
  · rintro ⟨hne, c, hc, h1, h2⟩
    obtain ⟨d, hd, hcd⟩ := r4 c hc
    exact ⟨hne, d, hd, (d.mem_fs _).1 (hcd ((c.mem_fs _).2 h1)), (d.mem_fs _).1 (hcd ((c.mem_fs _).2 h2))⟩

end PyBBN
