import Verif.Proofs.Triang

/-! What the elimination game guarantees: covering, maximality, and an order with the running intersection property. -/

namespace PyBBN

/-- adjacency is symmetric and irreflexive and stays within the variables -/
structure RelOn (S : List Variable) (R : Int → Int → Prop) : Prop where
  sym : ∀ x y, R x y → R y x
  irr : ∀ x, ¬ R x x
  mem : ∀ x y, R x y → x ∈ vids S

theorem RelOn.step {S : List Variable} {R R' : Int → Int → Prop} (h : RelOn S R) (v : Variable)
    (hR : ∀ x y, R' x y ↔ x ≠ v.id ∧ y ≠ v.id ∧ x ≠ y ∧ (R x y ∨ (R v.id x ∧ R v.id y))) :
    RelOn (S.filter (fun u => decide (u.id ≠ v.id))) R' := by
  refine ⟨?_, ?_, ?_⟩
  · intro x y
    rw [hR, hR]
    rintro ⟨h1, h2, h3, h4⟩
    refine ⟨h2, h1, fun e => h3 e.symm, ?_⟩
    rcases h4 with h4 | h4
    · exact Or.inl (h.sym _ _ h4)
    · exact Or.inr ⟨h4.2, h4.1⟩
  · intro x
    rw [hR]
    rintro ⟨_, _, h3, _⟩
    exact h3 rfl
  · intro x y
    rw [hR]
    rintro ⟨h1, _, _, h4⟩
    have hx : x ∈ vids S := by
      rcases h4 with h4 | h4
      · exact h.mem _ _ h4
      · exact h.mem _ _ (h.sym _ _ h4.1)
    obtain ⟨u, hu, rfl⟩ := List.mem_map.1 hx
    exact List.mem_map_of_mem (List.mem_filter.2 ⟨hu, by simpa using h1⟩)

theorem vids_filter (S : List Variable) (i j : Int) :
    j ∈ vids (S.filter (fun u => decide (u.id ≠ i))) ↔ j ∈ vids S ∧ j ≠ i := by
  simp only [vids, List.mem_map, List.mem_filter, decide_eq_true_eq]
  constructor
  · rintro ⟨u, ⟨h1, h2⟩, rfl⟩; exact ⟨⟨u, h1, rfl⟩, h2⟩
  · rintro ⟨⟨u, h1, rfl⟩, h2⟩; exact ⟨u, ⟨h1, h2⟩, rfl⟩

theorem ElimSeq.sub {S : List Variable} {R : Int → Int → Prop} {cs : List Clique} (h : ElimSeq S R cs) :
    ∀ c ∈ cs, (∀ u ∈ c.nodes, u ∈ S) ∧ c.nodeIds.Nodup ∧ c.nodeIds ≠ [] := by
  induction h with
  | nil => simp
  | @cons S R R' cs v c hv hsub hnd hmem hmin hR ht ih =>
    intro d hd
    rcases List.mem_cons.1 hd with rfl | hd
    · exact ⟨hsub, hnd, fun e => by have := (hmem v.id).2 (Or.inl rfl); rw [e] at this; simp at this⟩
    · exact ⟨fun u hu => (List.mem_filter.1 ((ih d hd).1 u hu)).1, (ih d hd).2⟩

/-- every complete set is inside some elimination clique -/
theorem ElimSeq.covers {S : List Variable} {R : Int → Int → Prop} {cs : List Clique} (h : ElimSeq S R cs) :
    ∀ Q : Finset Int, Q.Nonempty → (∀ i ∈ Q, i ∈ vids S) → (∀ x ∈ Q, ∀ y ∈ Q, x ≠ y → R x y) →
      ∃ c ∈ cs, Q ⊆ c.fs := by
  induction h with
  | nil =>
    rintro Q ⟨i, hi⟩ hs _
    have := hs i hi
    simp [vids] at this
  | @cons S R R' cs v c hv hsub hnd hmem hmin hR ht ih =>
    intro Q hne hs hcomp
    by_cases hvQ : v.id ∈ Q
    · refine ⟨c, List.mem_cons_self, ?_⟩
      intro i hi
      rw [Clique.mem_fs, hmem]
      by_cases e : i = v.id
      · exact Or.inl e
      · exact Or.inr (hcomp v.id hvQ i hi (fun e' => e e'.symm))
    · obtain ⟨d, hd, hQ⟩ := ih Q hne
        (by
          intro i hi
          rw [vids_filter]
          exact ⟨hs i hi, fun e => hvQ (e ▸ hi)⟩)
        (by
          intro x hx y hy hxy
          rw [hR]
          exact ⟨fun e => hvQ (e ▸ hx), fun e => hvQ (e ▸ hy), hxy, Or.inl (hcomp x hx y hy hxy)⟩)
      exact ⟨d, List.mem_cons_of_mem _ hd, hQ⟩

/-! ### recorded cliques -/

/-- pairwise incomparable cliques -/
def Antichain (l : List Clique) : Prop := l.Pairwise (fun a b => ¬ a.fs ⊆ b.fs ∧ ¬ b.fs ⊆ a.fs)

theorem ElimSeq.record {S : List Variable} {R : Int → Int → Prop} {cs : List Clique} (h : ElimSeq S R cs) :
    ∀ acc : List Clique, Antichain acc → (∀ a ∈ acc, ∃ i ∈ a.nodeIds, i ∉ vids S) →
      Antichain (cs.foldl record acc) ∧ (∀ a ∈ acc, a ∈ cs.foldl record acc) ∧
      (∀ c ∈ cs.foldl record acc, c ∈ acc ∨ c ∈ cs) ∧
      (∀ c ∈ cs, ∃ d ∈ cs.foldl record acc, c.fs ⊆ d.fs) := by
  induction h with
  | nil => intro acc ha _; exact ⟨ha, fun a h => h, fun c h => Or.inl h, by simp⟩
  | @cons S R R' cs v c hv hsub hnd hmem hmin hR ht ih =>
    intro acc ha hfresh
    rw [List.foldl_cons]
    have hvc : v.id ∈ c.nodeIds := (hmem _).2 (Or.inl rfl)
    have hvS : v.id ∉ vids (S.filter (fun u => decide (u.id ≠ v.id))) := by
      rw [vids_filter]; exact fun h => h.2 rfl
    have hfr : ∀ a ∈ acc, ∃ i ∈ a.nodeIds, i ∉ vids (S.filter (fun u => decide (u.id ≠ v.id))) := by
      intro a ham
      obtain ⟨i, hi, hiS⟩ := hfresh a ham
      exact ⟨i, hi, fun hc => hiS ((vids_filter _ _ _).1 hc).1⟩
    unfold PyBBN.record
    by_cases hs : Triangulator.isSubset acc c = true
    · rw [if_pos hs]
      obtain ⟨h1, h2, h3, h4⟩ := ih acc ha hfr
      refine ⟨h1, h2, ?_, ?_⟩
      · intro d hd
        rcases h3 d hd with h | h
        · exact Or.inl h
        · exact Or.inr (List.mem_cons_of_mem _ h)
      · intro d hd
        rcases List.mem_cons.1 hd with rfl | hd
        · obtain ⟨e, he, hde⟩ := (isSubset_iff _ _).1 hs
          exact ⟨e, h2 e he, hde⟩
        · exact h4 d hd
    · rw [if_neg hs]
      have hs' : ∀ d ∈ acc, ¬ c.fs ⊆ d.fs := by
        intro d hd hcd
        exact hs ((isSubset_iff _ _).2 ⟨d, hd, hcd⟩)
      obtain ⟨h1, h2, h3, h4⟩ := ih (acc ++ [c])
        (by
          unfold Antichain
          rw [List.pairwise_append]
          refine ⟨ha, by simp, ?_⟩
          intro a ham b hb
          simp at hb
          subst hb
          refine ⟨?_, hs' a ham⟩
          intro hab
          obtain ⟨i, hi, hiS⟩ := hfresh a ham
          have : i ∈ b.nodeIds := (b.mem_fs i).1 (hab ((a.mem_fs i).2 hi))
          obtain ⟨u, hu, rfl⟩ := List.mem_map.1 this
          exact hiS (List.mem_map_of_mem (hsub u hu)))
        (by
          intro a ham
          rcases List.mem_append.1 ham with ham | ham
          · exact hfr a ham
          · simp at ham; subst ham
            exact ⟨v.id, hvc, hvS⟩)
      refine ⟨h1, fun a ham => h2 a (List.mem_append.2 (Or.inl ham)), ?_, ?_⟩
      · intro d hd
        rcases h3 d hd with h | h
        · rcases List.mem_append.1 h with h | h
          · exact Or.inl h
          · simp at h; subst h; exact Or.inr List.mem_cons_self
        · exact Or.inr (List.mem_cons_of_mem _ h)
      · intro d hd
        rcases List.mem_cons.1 hd with rfl | hd
        · exact ⟨d, h2 d (by simp), Finset.Subset.refl _⟩
        · exact h4 d hd

theorem pairwise_forall {α : Type*} {R : α → α → Prop} (hs : ∀ a b, R a b → R b a) :
    ∀ {l : List α}, l.Pairwise R → ∀ a ∈ l, ∀ b ∈ l, a ≠ b → R a b
  | [], _ => by simp
  | x :: l, h => by
      rw [List.pairwise_cons] at h
      intro a ha b hb hab
      rcases List.mem_cons.1 ha with e | ha'
      · rcases List.mem_cons.1 hb with e' | hb'
        · exact absurd (e.trans e'.symm) hab
        · exact e ▸ h.1 b hb'
      · rcases List.mem_cons.1 hb with e' | hb'
        · exact e' ▸ hs _ _ (h.1 a ha')
        · exact pairwise_forall hs h.2 a ha' b hb' hab

/-! ### running intersection order -/

/-- union of a list of sets -/
def unionAll (l : List (Finset Int)) : Finset Int := l.foldr (· ∪ ·) ∅

theorem mem_unionAll (l : List (Finset Int)) (i : Int) : i ∈ unionAll l ↔ ∃ A ∈ l, i ∈ A := by
  induction l with
  | nil => simp [unionAll]
  | cons A l ih =>
    have : unionAll (A :: l) = A ∪ unionAll l := rfl
    rw [this, Finset.mem_union, ih]
    simp

/-- `JOrder l`: scanning `l` from its end, each set meets the union of the sets after it inside one of them
(or not at all). -/
inductive JOrder : List (Finset Int) → Prop
  | nil : JOrder []
  | cons (A : Finset Int) (l : List (Finset Int)) (h : A ∩ unionAll l = ∅ ∨ ∃ P ∈ l, A ∩ unionAll l ⊆ P)
      (hl : JOrder l) : JOrder (A :: l)

theorem unionAll_replace (l1 l2 : List (Finset Int)) (N : Finset Int) (v i : Int) (hi : i ≠ v) :
    i ∈ unionAll (l1 ++ insert v N :: l2) ↔ i ∈ unionAll (l1 ++ N :: l2) := by
  simp only [mem_unionAll, List.mem_append, List.mem_cons]
  constructor
  · rintro ⟨A, hA | rfl | hA, hiA⟩
    · exact ⟨A, Or.inl hA, hiA⟩
    · exact ⟨N, Or.inr (Or.inl rfl), by simpa [hi] using hiA⟩
    · exact ⟨A, Or.inr (Or.inr hA), hiA⟩
  · rintro ⟨A, hA | rfl | hA, hiA⟩
    · exact ⟨A, Or.inl hA, hiA⟩
    · exact ⟨insert v A, Or.inr (Or.inl rfl), by simp [hiA]⟩
    · exact ⟨A, Or.inr (Or.inr hA), hiA⟩

/-- growing one member by a fresh element keeps the property -/
theorem JOrder.replace {N : Finset Int} {v : Int} : ∀ {l1 l2 : List (Finset Int)}, JOrder (l1 ++ N :: l2) →
    (∀ A ∈ l1 ++ N :: l2, v ∉ A) → JOrder (l1 ++ insert v N :: l2)
  | [], l2, h, hv => by
      cases h with
      | cons _ _ h hl =>
        refine JOrder.cons _ _ ?_ hl
        have hvu : v ∉ unionAll l2 := by
          rw [mem_unionAll]
          rintro ⟨A, hA, hvA⟩
          exact hv A (by simp [hA]) hvA
        have e : insert v N ∩ unionAll l2 = N ∩ unionAll l2 := by
          ext i
          simp only [Finset.mem_inter, Finset.mem_insert]
          constructor
          · rintro ⟨rfl | h1, h2⟩
            · exact absurd h2 hvu
            · exact ⟨h1, h2⟩
          · rintro ⟨h1, h2⟩; exact ⟨Or.inr h1, h2⟩
        rw [e]
        exact h
  | A :: l1, l2, h, hv => by
      cases h with
      | cons _ _ h hl =>
        refine JOrder.cons _ _ ?_ (JOrder.replace hl (fun B hB => hv B (List.mem_cons_of_mem _ hB)))
        have hvA : v ∉ A := hv A (by simp)
        have e : A ∩ unionAll (l1 ++ insert v N :: l2) = A ∩ unionAll (l1 ++ N :: l2) := by
          ext i
          simp only [Finset.mem_inter]
          constructor
          · rintro ⟨h1, h2⟩
            exact ⟨h1, (unionAll_replace l1 l2 N v i (fun e => hvA (e ▸ h1))).1 h2⟩
          · rintro ⟨h1, h2⟩
            exact ⟨h1, (unionAll_replace l1 l2 N v i (fun e => hvA (e ▸ h1))).2 h2⟩
        change A ∩ unionAll (l1 ++ N :: l2) = ∅ ∨ ∃ P ∈ l1 ++ N :: l2, A ∩ unionAll (l1 ++ N :: l2) ⊆ P at h
        change A ∩ unionAll (l1 ++ insert v N :: l2) = ∅ ∨
          ∃ P ∈ l1 ++ insert v N :: l2, A ∩ unionAll (l1 ++ insert v N :: l2) ⊆ P
        rw [e]
        rcases h with h | ⟨P, hP, h⟩
        · exact Or.inl h
        · right
          rcases List.mem_append.1 hP with hP | hP
          · exact ⟨P, List.mem_append.2 (Or.inl hP), h⟩
          · rcases List.mem_cons.1 hP with rfl | hP
            · exact ⟨insert v P, by simp, h.trans (Finset.subset_insert _ _)⟩
            · exact ⟨P, by simp [hP], h⟩

/-- the maximal elimination cliques can be ordered with the running intersection property -/
theorem ElimSeq.junction {S : List Variable} {R : Int → Int → Prop} {cs : List Clique} (h : ElimSeq S R cs) :
    RelOn S R →
    ∃ F : List (Finset Int), JOrder F ∧ F.Pairwise (fun a b => ¬ a ⊆ b ∧ ¬ b ⊆ a) ∧
      (∀ A ∈ F, ∃ c ∈ cs, c.fs = A) ∧ (∀ c ∈ cs, ∃ A ∈ F, c.fs ⊆ A) ∧ (∀ A ∈ F, ∀ i ∈ A, i ∈ vids S) := by
  induction h with
  | nil => intro _; exact ⟨[], JOrder.nil, by simp, by simp, by simp, by simp⟩
  | @cons S R R' cs v c hv hsub hnd hmem hmin hR ht ih =>
    intro hrel
    have hrel' := hrel.step v hR
    obtain ⟨F, f1, f2, f3, f4, f5⟩ := ih hrel'
    have hvF : ∀ A ∈ F, v.id ∉ A := by
      intro A hA hvA
      have := f5 A hA _ hvA
      rw [vids_filter] at this
      exact this.2 rfl
    set N : Finset Int := c.fs.erase v.id with hN
    have hvc : v.id ∈ c.fs := (c.mem_fs _).2 ((hmem _).2 (Or.inl rfl))
    have hcN : c.fs = insert v.id N := (Finset.insert_erase hvc).symm
    have hmN : ∀ i, i ∈ N ↔ R v.id i := by
      intro i
      rw [hN, Finset.mem_erase, Clique.mem_fs, hmem]
      constructor
      · rintro ⟨h1, h2 | h2⟩
        · exact absurd h2 h1
        · exact h2
      · intro h2
        exact ⟨fun e => hrel.irr _ (e ▸ h2), Or.inr h2⟩
    have hcS : ∀ i ∈ c.fs, i ∈ vids S := by
      intro i hi
      obtain ⟨u, hu, rfl⟩ := List.mem_map.1 ((c.mem_fs i).1 hi)
      exact List.mem_map_of_mem (hsub u hu)
    -- the neighbors lie in one member of F
    have hNcov : N = ∅ ∨ ∃ P ∈ F, N ⊆ P := by
      by_cases hne : N = ∅
      · exact Or.inl hne
      · right
        obtain ⟨d, hd, hNd⟩ := ht.covers N (Finset.nonempty_iff_ne_empty.2 hne)
          (by
            intro i hi
            rw [vids_filter]
            exact ⟨hcS i (Finset.mem_of_mem_erase hi), Finset.ne_of_mem_erase hi⟩)
          (by
            intro x hx y hy hxy
            rw [hR]
            exact ⟨Finset.ne_of_mem_erase hx, Finset.ne_of_mem_erase hy, hxy, Or.inr ⟨(hmN x).1 hx, (hmN y).1 hy⟩⟩)
        obtain ⟨A, hA, hdA⟩ := f4 d hd
        exact ⟨A, hA, hNd.trans hdA⟩
    have hSub : ∀ i, i ∈ vids (S.filter (fun u => decide (u.id ≠ v.id))) → i ∈ vids S :=
      fun i hi => ((vids_filter _ _ _).1 hi).1
    by_cases hNF : N ∈ F
    · -- N grows to c
      obtain ⟨l1, l2, rfl⟩ := List.append_of_mem hNF
      refine ⟨l1 ++ c.fs :: l2, ?_, ?_, ?_, ?_, ?_⟩
      · rw [hcN]; exact f1.replace hvF
      · rw [List.pairwise_append] at f2 ⊢
        obtain ⟨p1, p2, p3⟩ := f2
        rw [List.pairwise_cons] at p2 ⊢
        refine ⟨p1, ⟨?_, p2.2⟩, ?_⟩
        · intro B hB
          have hvB := hvF B (by simp [hB])
          refine ⟨fun hcB => hvB (hcB hvc), ?_⟩
          intro hBc
          apply (p2.1 B hB).2
          intro i hi
          rw [hN, Finset.mem_erase]
          exact ⟨fun e => hvB (e ▸ hi), hBc hi⟩
        · intro A hA B hB
          rcases List.mem_cons.1 hB with rfl | hB
          · have hvA := hvF A (by simp [hA])
            refine ⟨?_, fun hcA => hvA (hcA hvc)⟩
            intro hAc
            apply (p3 A hA N (by simp)).1
            intro i hi
            rw [hN, Finset.mem_erase]
            exact ⟨fun e => hvA (e ▸ hi), hAc hi⟩
          · exact p3 A hA B (by simp [hB])
      · intro A hA
        rcases List.mem_append.1 hA with hA | hA
        · obtain ⟨d, hd, e⟩ := f3 A (by simp [hA]); exact ⟨d, List.mem_cons_of_mem _ hd, e⟩
        · rcases List.mem_cons.1 hA with rfl | hA
          · exact ⟨c, List.mem_cons_self, rfl⟩
          · obtain ⟨d, hd, e⟩ := f3 A (by simp [hA]); exact ⟨d, List.mem_cons_of_mem _ hd, e⟩
      · intro d hd
        rcases List.mem_cons.1 hd with rfl | hd
        · exact ⟨d.fs, by simp, Finset.Subset.refl _⟩
        · obtain ⟨A, hA, hdA⟩ := f4 d hd
          rcases List.mem_append.1 hA with hA | hA
          · exact ⟨A, by simp [hA], hdA⟩
          · rcases List.mem_cons.1 hA with rfl | hA
            · exact ⟨c.fs, by simp, hdA.trans (Finset.erase_subset _ _)⟩
            · exact ⟨A, by simp [hA], hdA⟩
      · intro A hA i hi
        rcases List.mem_append.1 hA with hA | hA
        · exact hSub i (f5 A (by simp [hA]) i hi)
        · rcases List.mem_cons.1 hA with rfl | hA
          · exact hcS i hi
          · exact hSub i (f5 A (by simp [hA]) i hi)
    · -- c is attached
      refine ⟨c.fs :: F, ?_, ?_, ?_, ?_, ?_⟩
      · refine JOrder.cons _ _ ?_ f1
        have e : c.fs ∩ unionAll F ⊆ N := by
          intro i hi
          rw [Finset.mem_inter, mem_unionAll] at hi
          obtain ⟨h1, A, hA, hiA⟩ := hi
          rw [hN, Finset.mem_erase]
          exact ⟨fun e => hvF A hA (e ▸ hiA), h1⟩
        rcases hNcov with h | ⟨P, hP, h⟩
        · left
          rw [h] at e
          exact Finset.subset_empty.1 e
        · exact Or.inr ⟨P, hP, e.trans h⟩
      · rw [List.pairwise_cons]
        refine ⟨?_, f2⟩
        intro B hB
        have hvB := hvF B hB
        refine ⟨fun hcB => hvB (hcB hvc), ?_⟩
        intro hBc
        have hBN : B ⊆ N := by
          intro i hi
          rw [hN, Finset.mem_erase]
          exact ⟨fun e => hvB (e ▸ hi), hBc hi⟩
        rcases hNcov with h | ⟨P, hP, h⟩
        · obtain ⟨d, hd, rfl⟩ := f3 B hB
          have hdne := (ht.sub d hd).2.2
          rw [h] at hBN
          have : d.fs = ∅ := Finset.subset_empty.1 hBN
          unfold Clique.fs at this
          simp at this
          exact hdne this
        · have hBP : B = P := by
            by_contra hne
            have : ∀ a ∈ F, ∀ b ∈ F, a ≠ b → ¬ a ⊆ b := by
              intro a ha b hb hab
              exact (pairwise_forall (fun a b h => ⟨h.2, h.1⟩) f2 a ha b hb hab).1
            exact this B hB P hP hne (hBN.trans h)
          subst hBP
          have : N = B := Finset.Subset.antisymm h hBN
          exact hNF (this ▸ hB)
      · intro A hA
        rcases List.mem_cons.1 hA with rfl | hA
        · exact ⟨c, List.mem_cons_self, rfl⟩
        · obtain ⟨d, hd, e⟩ := f3 A hA; exact ⟨d, List.mem_cons_of_mem _ hd, e⟩
      · intro d hd
        rcases List.mem_cons.1 hd with rfl | hd
        · exact ⟨d.fs, by simp, Finset.Subset.refl _⟩
        · obtain ⟨A, hA, hdA⟩ := f4 d hd
          exact ⟨A, by simp [hA], hdA⟩
      · intro A hA i hi
        rcases List.mem_cons.1 hA with rfl | hA
        · exact hcS i hi
        · exact hSub i (f5 A hA i hi)

end PyBBN
