import Verif.Proofs.Serde

/-! A join tree written to a dictionary and read back. -/

namespace PyBBN
open Relation

/-! ### keys of join tree edges -/

/-- two minus signs in a row -/
def dd : Str → Bool
  | '-' :: '-' :: _ => true
  | _ :: s => dd s
  | [] => false

theorem dd_append (p q : Str) : dd (p ++ '-' :: '-' :: q) = true := by
  induction p with
  | nil => rfl
  | cons c p ih =>
    rw [List.cons_append]
    unfold dd
    split
    · rfl
    · rename_i h; cases h; exact ih
    · rename_i h; cases h

theorem dd_digits {ds t : Str} (h : '-' ∉ ds) : dd (ds ++ t) = dd t := by
  induction ds with
  | nil => rfl
  | cons c ds ih =>
    have hc : c ≠ '-' := fun e => h (e ▸ List.mem_cons_self)
    rw [List.cons_append]
    rw [← ih (fun hm => h (List.mem_cons_of_mem _ hm))]
    conv_lhs => unfold dd
    split
    · rename_i e; rw [List.cons.injEq] at e; exact absurd e.1 hc
    · rename_i e; cases e; rfl
    · rename_i e; cases e

theorem dd_minus {c : Char} {t : Str} (h : c ≠ '-') : dd ('-' :: c :: t) = dd (c :: t) := by
  conv_lhs => unfold dd
  split
  · rename_i e; cases e; exact absurd rfl h
  · rename_i e; cases e; rfl
  · rename_i e; cases e

theorem strInt_nonneg {n : Int} (h : 0 ≤ n) : strInt n = Nat.toDigits 10 n.natAbs := by
  unfold strInt; rw [if_neg (by omega)]

theorem strInt_neg {n : Int} (h : n < 0) : strInt n = '-' :: Nat.toDigits 10 n.natAbs := by
  unfold strInt; rw [if_pos h]

theorem toDigits_cons (n : Nat) : ∃ c t, Nat.toDigits 10 n = c :: t ∧ c ≠ '-' := by
  cases h : Nat.toDigits 10 n with
  | nil => exact absurd h Nat.toDigits_ne_nil
  | cons c t => exact ⟨c, t, rfl, fun e => toDigits_ne_cons_minus n t (by rw [h, e])⟩

/-- `"-".join(…)` of nonnegative numbers, after a minus sign: no two minus signs in a row -/
theorem dd_join : ∀ (l : List Int), (∀ x ∈ l, 0 ≤ x) → l ≠ [] → dd ('-' :: joinStr "-".toList (l.map strInt)) = false
  | [], _, h => absurd rfl h
  | [a], h, _ => by
      have ha := h a (by simp)
      obtain ⟨c, t, e, hc⟩ := toDigits_cons a.natAbs
      simp only [List.map_cons, List.map_nil, joinStr]
      rw [strInt_nonneg ha, e, dd_minus hc, ← e, ← List.append_nil (Nat.toDigits 10 _), dd_digits (minus_not_mem_toDigits _)]
      rfl
  | a :: b :: l, h, _ => by
      have ha := h a (by simp)
      obtain ⟨c, t, e, hc⟩ := toDigits_cons a.natAbs
      have ih := dd_join (b :: l) (fun x hx => h x (List.mem_cons_of_mem _ hx)) (by simp)
      have e2 : joinStr "-".toList ((a :: b :: l).map strInt) =
          Nat.toDigits 10 a.natAbs ++ ('-' :: joinStr "-".toList ((b :: l).map strInt)) := by
        simp only [List.map_cons, joinStr]
        rw [strInt_nonneg ha]
        simp
      rw [e2]
      have : dd ('-' :: (Nat.toDigits 10 a.natAbs ++ '-' :: joinStr "-".toList ((b :: l).map strInt))) =
          dd (Nat.toDigits 10 a.natAbs ++ '-' :: joinStr "-".toList ((b :: l).map strInt)) := by
        rw [e, List.cons_append, dd_minus hc]
      rw [this, dd_digits (minus_not_mem_toDigits _), ih]

theorem join_cons (a : Int) (l : List Int) (X : Str) : joinStr "-".toList ((a :: l).map strInt) ++ '-' :: '-' :: X =
    strInt a ++ '-' :: (match l with | [] => '-' :: X | b :: l => joinStr "-".toList ((b :: l).map strInt) ++ '-' :: '-' :: X) := by
  cases l with
  | nil => simp [joinStr]
  | cons b l => simp [joinStr]

/-- the second list cannot be continued with the separator in the first -/
theorem join_dd_ne {B : List Int} (hB : B.Pairwise (· < ·)) (hne : B ≠ []) (a : Int) (l : List Int) (Y : Str) :
    '-' :: joinStr "-".toList (B.map strInt) ≠ joinStr "-".toList ((a :: l).map strInt) ++ '-' :: '-' :: Y := by
  intro h
  cases B with
  | nil => exact hne rfl
  | cons b B =>
    by_cases hb : 0 ≤ b
    · have hall : ∀ x ∈ b :: B, 0 ≤ x := by
        intro x hx
        have := head_le_of_mem hB x hx b (by simp)
        omega
      have := dd_join (b :: B) hall (by simp)
      rw [h, dd_append] at this
      exact Bool.noConfusion this
    · have hb' : b < 0 := by omega
      have hstart : ∃ s, joinStr "-".toList ((b :: B).map strInt) = '-' :: s := by
        cases B with
        | nil => exact ⟨_, by simp only [List.map_cons, List.map_nil, joinStr]; exact strInt_neg hb'⟩
        | cons c B => exact ⟨_, by simp only [List.map_cons, joinStr]; rw [strInt_neg hb']; rfl⟩
      obtain ⟨s, hs⟩ := hstart
      rw [hs, join_cons] at h
      by_cases ha : 0 ≤ a
      · obtain ⟨c, t, e, hc⟩ := toDigits_cons a.natAbs
        rw [strInt_nonneg ha, e, List.cons_append, List.cons.injEq] at h
        exact hc h.1.symm
      · obtain ⟨c, t, e, hc⟩ := toDigits_cons a.natAbs
        rw [strInt_neg (by omega), e, List.cons_append, List.cons.injEq, List.cons_append, List.cons.injEq] at h
        exact hc h.2.1.symm

/-- `A--B` determines the two ascending lists of ids -/
theorem joinKey_inj : ∀ {A C B D : List Int}, A ≠ [] → C ≠ [] → B ≠ [] → D ≠ [] → B.Pairwise (· < ·) → D.Pairwise (· < ·) →
    joinStr "-".toList (A.map strInt) ++ "--".toList ++ joinStr "-".toList (B.map strInt) =
      joinStr "-".toList (C.map strInt) ++ "--".toList ++ joinStr "-".toList (D.map strInt) → A = C ∧ B = D
  | [], _, _, _, h, _, _, _, _, _, _ => absurd rfl h
  | _ :: _, [], _, _, _, h, _, _, _, _, _ => absurd rfl h
  | a :: A, c :: C, B, D, _, _, hB, hD, hsB, hsD, h => by
      have h' : joinStr "-".toList ((a :: A).map strInt) ++ '-' :: '-' :: joinStr "-".toList (B.map strInt) =
          joinStr "-".toList ((c :: C).map strInt) ++ '-' :: '-' :: joinStr "-".toList (D.map strInt) := by
        simpa using h
      rw [join_cons, join_cons] at h'
      obtain ⟨rfl, h2⟩ := strInt_append_inj (by simp [Char.isDigit]) (by simp [Char.isDigit]) h'
      rw [List.cons.injEq] at h2
      replace h2 := h2.2
      cases A with
      | nil =>
        cases C with
        | nil =>
          simp only [List.cons.injEq] at h2
          exact ⟨rfl, joinInts_inj h2.2⟩
        | cons c C => exact absurd h2 (join_dd_ne hsB hB _ _ _)
      | cons a' A =>
        cases C with
        | nil => exact absurd h2.symm (join_dd_ne hsD hD _ _ _)
        | cons c C =>
          have := joinKey_inj (A := a' :: A) (C := c :: C) (by simp) (by simp) hB hD hsB hsD (by simpa using h2)
          exact ⟨by rw [this.1], this.2⟩

theorem sortInts_ne_nil {l : List Int} (h : l ≠ []) : sortInts l ≠ [] := by
  intro e
  have := (sortInts_perm l).length_eq
  rw [e] at this
  exact h (List.length_eq_zero_iff.1 this.symm)

/-- two separation sets with the same edge key join the same cliques -/
theorem edgeKey_inj {all : List Clique} (hf : CFam all) {s t : SepSet} (hs : GoodSep all s) (ht : GoodSep all t)
    (h : JoinTree.edgeKey s = JoinTree.edgeKey t) :
    (s.left = t.left ∧ s.right = t.right) ∨ (s.left = t.right ∧ s.right = t.left) := by
  have hne : ∀ {s : SepSet}, GoodSep all s → s.left.nodeIds ≠ [] ∧ s.right.nodeIds ≠ [] := by
    intro s hs
    obtain ⟨x, h1, h2⟩ := hs.common
    exact ⟨List.ne_nil_of_mem h1, List.ne_nil_of_mem h2⟩
  have key : ∀ {a b c d : Clique}, a ∈ all → b ∈ all → c ∈ all → d ∈ all → a.nodeIds ≠ [] → b.nodeIds ≠ [] → c.nodeIds ≠ [] →
      d.nodeIds ≠ [] → a.id ++ "--".toList ++ b.id = c.id ++ "--".toList ++ d.id → a = c ∧ b = d := by
    intro a b c d ha hb hc hd na nb nc nd e
    obtain ⟨e1, e2⟩ := joinKey_inj (sortInts_ne_nil na) (sortInts_ne_nil nc) (sortInts_ne_nil nb) (sortInts_ne_nil nd)
      (sortInts_strict (hf.nodup b hb)) (sortInts_strict (hf.nodup d hd)) e
    exact ⟨(hf.id_iff ha hc).1 (by unfold Clique.id; rw [e1]), (hf.id_iff hb hd).1 (by unfold Clique.id; rw [e2])⟩
  obtain ⟨s1, s2⟩ := hne hs
  obtain ⟨t1, t2⟩ := hne ht
  unfold JoinTree.edgeKey at h
  split at h <;> split at h
  · exact Or.inl (key hs.left hs.right ht.left ht.right s1 s2 t1 t2 h)
  · exact Or.inr (key hs.left hs.right ht.right ht.left s1 s2 t2 t1 h)
  · have := key hs.right hs.left ht.left ht.right s2 s1 t1 t2 h
    exact Or.inr ⟨this.2, this.1⟩
  · have := key hs.right hs.left ht.right ht.left s2 s1 t2 t1 h
    exact Or.inl ⟨this.2, this.1⟩

/-! ### the edge dictionary of a join tree -/

/-- the edges are exactly the separation sets -/
structure EdgesOk (T : List SepSet) (jt : JoinTree) : Prop where
  key : ∀ k s, (k, s) ∈ jt.edges → k = JoinTree.edgeKey s
  perm : (Dict.values jt.edges).Perm T

section
variable {all : List Clique} {pres : Clique → Prop} {T : List SepSet} {jt : JoinTree}

theorem EdgesOk.add (hf : CFam all) (h : JTree all pres T jt) (ho : EdgesOk T jt) (js : SetIter Str) {s : SepSet}
    (hs : GoodSep all s) (hn : ¬ Conn sl sr T s.left.fs s.right.fs) : EdgesOk (s :: T) (jt.addEdge js s) := by
  have hnew : JoinTree.edgeKey s ∉ Dict.keys jt.edges := by
    intro hm
    obtain ⟨⟨k, t⟩, hkt, e⟩ := List.mem_map.1 hm
    have hk := ho.key k t hkt
    have ht : t ∈ T := ho.perm.mem_iff.1 (List.mem_map_of_mem hkt)
    simp only at e
    rw [hk] at e
    have hc : Conn sl sr T t.left.fs t.right.fs := Conn.edge (l := sl) (r := sr) ht
    rcases edgeKey_inj hf hs (h.good t ht) e.symm with ⟨e1, e2⟩ | ⟨e1, e2⟩
    · rw [e1, e2] at hn; exact hn hc
    · rw [e1, e2] at hn; exact hn hc.symm
  have hed : (jt.addEdge js s).edges = jt.edges ++ [(JoinTree.edgeKey s, s)] := by
    unfold JoinTree.addEdge
    rw [if_pos ((h.shouldAdd_iff hf js hs).2 hn)]
    exact Dict.set_of_not_mem hnew s
  refine ⟨?_, ?_⟩
  · rw [hed]
    intro k t hkt
    rcases List.mem_append.1 hkt with hkt | hkt
    · exact ho.key k t hkt
    · simp at hkt
      obtain ⟨rfl, rfl⟩ := hkt
      rfl
  · rw [hed]
    unfold Dict.values
    rw [List.map_append]
    exact (List.perm_append_singleton s _).trans (ho.perm.cons s)

/-- `transform` -/
theorem addEdges_edges (js : SetIter Str) (hf : CFam all) : ∀ (es : List SepSet) (jt : JoinTree) (T : List SepSet),
    JTree all pres T jt → EdgesOk T jt → Forest sl sr T → (∀ s ∈ es, GoodSep all s) → (∀ s ∈ es, pres s.left ∧ pres s.right) →
    ∃ T', JTree all pres T' (es.foldl (fun jt s => jt.addEdge js s) jt) ∧
      EdgesOk T' (es.foldl (fun jt s => jt.addEdge js s) jt) ∧ Forest sl sr T'
  | [], jt, T, h, ho, hF, _, _ => ⟨T, h, ho, hF⟩
  | s :: es, jt, T, h, ho, hF, hg, hp => by
      rw [List.foldl_cons]
      by_cases hc : Conn sl sr T s.left.fs s.right.fs
      · rw [h.skip hf js (hg s List.mem_cons_self) hc]
        exact addEdges_edges js hf es jt T h ho hF (fun t ht => hg t (List.mem_cons_of_mem _ ht))
          (fun t ht => hp t (List.mem_cons_of_mem _ ht))
      · have hadd := (h.add hf js (hg s List.mem_cons_self) hc).congr (pres' := pres) (by
          intro c
          constructor
          · rintro (hc | rfl | rfl)
            · exact hc
            · exact (hp s List.mem_cons_self).1
            · exact (hp s List.mem_cons_self).2
          · exact Or.inl)
        exact addEdges_edges js hf es _ (s :: T) hadd (ho.add hf h js (hg s List.mem_cons_self) hc) ⟨hc, hF⟩
          (fun t ht => hg t (List.mem_cons_of_mem _ ht)) (fun t ht => hp t (List.mem_cons_of_mem _ ht))

theorem EdgesOk.empty : EdgesOk [] {} := ⟨by simp, by simp [Dict.values]⟩

theorem EdgesOk.congr {T' : List SepSet} (h : EdgesOk T jt) (hp : T.Perm T') : EdgesOk T' jt := ⟨h.key, h.perm.trans hp⟩

theorem EdgesOk.frame {jt' : JoinTree} (h : EdgesOk T jt) (he : jt'.edges = jt.edges) : EdgesOk T jt' :=
  ⟨by rw [he]; exact h.key, by rw [he]; exact h.perm⟩

theorem transform_edges (js : SetIter Str) {b : Bbn} {cs : List Clique} (hs : CliqueSpec b cs)
    (ht : JTSpec cs T (Transformer.transform js cs)) : EdgesOk T (Transformer.transform js cs) := by
  have hf : CFam cs := ⟨hs.nodup, hs.anti⟩
  obtain ⟨hgood, _⟩ := getSepSets_good hf
  have h0 := (addCliques_spec hf cs {} _ (empty_jtree cs) (fun c hc => hc)).congr (pres' := fun c => c ∈ cs) (by simp)
  have e0 : ∀ (l : List Clique) (jt : JoinTree), (l.foldl Transformer.addClique jt).edges = jt.edges := by
    intro l
    induction l with
    | nil => intro jt; rfl
    | cons c l ih => intro jt; rw [List.foldl_cons, ih]; rfl
  obtain ⟨T', h1, h2, h3⟩ := addEdges_edges js hf (Transformer.getSepSets cs) _ [] h0
    (EdgesOk.empty.frame (e0 cs {})) trivial hgood (fun s hs => ⟨(hgood s hs).left, (hgood s hs).right⟩)
  refine h2.congr ?_
  rw [List.perm_ext_iff_of_nodup h3.nodup ht.forest.nodup]
  intro s
  rw [← ht.shape.mem_getSepSets]
  exact (h1.mem_getSepSets s).symm

/-- adding the edges of a forest one after the other -/
theorem load_edges (js : SetIter Str) (hf : CFam all) : ∀ (es : List SepSet) (pres : Clique → Prop) (jt : JoinTree) (T : List SepSet),
    JTree all pres T jt → EdgesOk T jt → Forest sl sr (es.reverse ++ T) → (∀ s ∈ es, GoodSep all s) →
    JTree all (fun c => pres c ∨ ∃ s ∈ es, c = s.left ∨ c = s.right) (es.reverse ++ T) (es.foldl (fun jt s => jt.addEdge js s) jt) ∧
      EdgesOk (es.reverse ++ T) (es.foldl (fun jt s => jt.addEdge js s) jt)
  | [], pres, jt, T, h, ho, _, _ => ⟨h.congr (by simp), ho⟩
  | s :: es, pres, jt, T, h, ho, hF, hg => by
      have e : (s :: es).reverse ++ T = es.reverse ++ (s :: T) := by simp
      rw [e] at hF ⊢
      rw [List.foldl_cons]
      have hc : ¬ Conn sl sr T s.left.fs s.right.fs := (hF.sublist (List.sublist_append_right _ _)).1
      obtain ⟨h1, h2⟩ := load_edges js hf es _ _ (s :: T) (h.add hf js (hg s List.mem_cons_self) hc)
        (ho.add hf h js (hg s List.mem_cons_self) hc) hF (fun t ht => hg t (List.mem_cons_of_mem _ ht))
      refine ⟨h1.congr ?_, h2⟩
      intro c
      simp only [List.mem_cons, exists_eq_or_imp]
      rw [or_assoc]

theorem Forest.perm {V E : Type} [DecidableEq V] [DecidableEq E] {l r : E → V} : ∀ {T T' : List E}, Forest l r T → T.Perm T' → Forest l r T'
  | T, [], _, _ => trivial
  | T, e :: T', hF, hp => by
      have he : e ∈ T := hp.mem_iff.2 List.mem_cons_self
      have hp' : (T.erase e).Perm T' := by
        have := hp.erase e
        simpa using this
      refine ⟨?_, Forest.perm (hF.sublist List.erase_sublist) hp'⟩
      intro hc
      exact hF.remove he (hc.mono (fun f hf => hp'.mem_iff.2 hf))

theorem Forest.map {V E : Type} [DecidableEq V] {l r : E → V} {f : E → E} : ∀ {T : List E},
    (∀ e ∈ T, l (f e) = l e ∧ r (f e) = r e) → Forest l r T → Forest l r (T.map f)
  | [], _, h => h
  | e :: T, hf, h => by
      refine ⟨?_, Forest.map (fun g hg => hf g (List.mem_cons_of_mem _ hg)) h.2⟩
      rw [(hf e List.mem_cons_self).1, (hf e List.mem_cons_self).2]
      intro hc
      apply h.1
      refine hc.lift' ?_
      intro g hg
      obtain ⟨g', hg', rfl⟩ := List.mem_map.1 hg
      rw [(hf g' (List.mem_cons_of_mem _ hg')).1, (hf g' (List.mem_cons_of_mem _ hg')).2]
      exact Conn.edge hg'

/-! ### cliques with the nodes in another order -/

/-- the same cliques up to the order of the nodes -/
structure Reorder (cs : List Clique) (φ : Clique → Clique) : Prop where
  perm : ∀ c ∈ cs, (φ c).nodes.Perm c.nodes

/-- the separation set read back -/
def reSep (φ : Clique → Clique) (s : SepSet) : SepSet := SepSet.mk' (φ s.left) (φ s.right)

variable {cs : List Clique} {φ : Clique → Clique}

theorem Reorder.ids (h : Reorder cs φ) {c : Clique} (hc : c ∈ cs) : (φ c).nodeIds.Perm c.nodeIds := (h.perm c hc).map _

theorem Reorder.fs (h : Reorder cs φ) {c : Clique} (hc : c ∈ cs) : (φ c).fs = c.fs := by
  ext i
  rw [Clique.mem_fs, Clique.mem_fs, (h.ids hc).mem_iff]

theorem sortInts_congr {l m : List Int} (h : l.Perm m) : sortInts l = sortInts m := by
  apply List.Perm.eq_of_pairwise (le := fun a b : Int => a ≤ b) _ (sortInts_sorted l) (sortInts_sorted m)
  · exact ((sortInts_perm l).trans h).trans (sortInts_perm m).symm
  · intro a b _ _ h1 h2; omega

theorem Reorder.id (h : Reorder cs φ) {c : Clique} (hc : c ∈ cs) : (φ c).id = c.id := by
  unfold Clique.id
  rw [sortInts_congr (h.ids hc)]

theorem Reorder.sepId (h : Reorder cs φ) {s : SepSet} (hs : GoodSep cs s) : (reSep φ s).id = s.id := by
  conv_rhs => rw [hs.eq]
  unfold reSep
  have hl := h.ids hs.left
  have hr := h.ids hs.right
  have hp : ((φ s.left).nodeIds.filter (fun x => decide (x ∈ (φ s.right).nodeIds))).Perm
      (s.left.nodeIds.filter (fun x => decide (x ∈ s.right.nodeIds))) := by
    have : (fun x => decide (x ∈ (φ s.right).nodeIds)) = (fun x => decide (x ∈ s.right.nodeIds)) := by
      funext x; rw [Bool.eq_iff_iff, decide_eq_true_eq, decide_eq_true_eq, hr.mem_iff]
    rw [this]
    exact hl.filter _
  have hn : s.left.nodeIds.filter (fun x => decide (x ∈ s.right.nodeIds)) ≠ [] := by
    obtain ⟨x, h1, h2⟩ := hs.common
    exact List.ne_nil_of_mem (List.mem_filter.2 ⟨h1, by simpa using h2⟩)
  have hn' : (φ s.left).nodeIds.filter (fun x => decide (x ∈ (φ s.right).nodeIds)) ≠ [] := by
    intro e
    rw [e] at hp
    exact hn (List.nil_perm.1 hp)
  unfold SepSet.mk' Clique.intersects
  simp only [hn, hn', if_false]
  rw [sortInts_congr hl, sortInts_congr hr, sortInts_congr hp]

theorem Reorder.cfam (h : Reorder cs φ) (hf : CFam cs) : CFam (cs.map φ) := by
  refine ⟨?_, ?_⟩
  · intro c hc
    obtain ⟨d, hd, rfl⟩ := List.mem_map.1 hc
    exact (h.ids hd).nodup_iff.2 (hf.nodup d hd)
  · unfold Antichain
    rw [List.pairwise_map]
    exact hf.anti.imp_of_mem (fun ha hb hab => by rw [h.fs ha, h.fs hb]; exact hab)

theorem Reorder.good (h : Reorder cs φ) (hf : CFam cs) {s : SepSet} (hs : GoodSep cs s) : GoodSep (cs.map φ) (reSep φ s) := by
  refine ⟨List.mem_map_of_mem hs.left, List.mem_map_of_mem hs.right, ?_, rfl, ?_⟩
  · intro e
    have e' : φ s.left = φ s.right := e
    apply hs.ne
    apply hf.fs_inj hs.left hs.right
    rw [← h.fs hs.left, ← h.fs hs.right, e']
  · obtain ⟨x, h1, h2⟩ := hs.common
    exact ⟨x, (h.ids hs.left).mem_iff.2 h1, (h.ids hs.right).mem_iff.2 h2⟩

/-- every clique can be read back: there are no edges, or each clique is at the end of some edge -/
def Reloadable (jt : JoinTree) : Prop :=
  Dict.values jt.edges = [] ∨ ∀ c ∈ jt.getCliques, ∃ s ∈ Dict.values jt.edges, c = s.left ∨ c = s.right

/-- the join tree made from the cliques and separation sets read back -/
theorem Reorder.spec (h : Reorder cs φ) (hj : JTSpec cs T jt) {jt' : JoinTree} {T' : List SepSet}
    (hs : JTree (cs.map φ) (fun c => c ∈ cs.map φ) T' jt') (hT : T'.Perm (T.map (reSep φ))) : JTSpec (cs.map φ) T' jt' := by
  have hends : ∀ s ∈ T, sl (reSep φ s) = sl s ∧ sr (reSep φ s) = sr s := fun s hs =>
    ⟨h.fs (hj.shape.good s hs).left, h.fs (hj.shape.good s hs).right⟩
  refine ⟨h.cfam hj.fam, hs, ?_, ?_⟩
  · exact (Forest.map hends hj.forest).perm hT.symm
  · intro v c hc d hd hvc hvd
    obtain ⟨c', hc', rfl⟩ := List.mem_map.1 hc
    obtain ⟨d', hd', rfl⟩ := List.mem_map.1 hd
    rw [h.fs hc'] at hvc ⊢
    rw [h.fs hd'] at hvd ⊢
    refine (hj.rip v c' hc' d' hd' hvc hvd).lift' ?_
    intro s hs
    rw [List.mem_filter] at hs
    rw [← (hends s hs.1).1, ← (hends s hs.1).2]
    apply Conn.edge (l := sl) (r := sr)
    rw [List.mem_filter]
    refine ⟨hT.mem_iff.2 (List.mem_map_of_mem hs.1), ?_⟩
    rw [(hends s hs.1).1, (hends s hs.1).2]
    exact hs.2

end

/-! ### `from_dict(to_dict(jt, bbn))` -/

section
variable {vars : List Variable} {cs : List Clique} {T : List SepSet} {jt : JoinTree}

/-- the variable with an id (or a dummy) -/
def JoinTree.varOf (jt : JoinTree) (i : Int) : Variable := (Dict.get? jt.bbnNodeDict i).getD ⟨i, [], []⟩

/-- the clique read back -/
def reClique (it : SetIter Int) (jt : JoinTree) (c : Clique) : Clique := ⟨(it.iter 0 0 c.nodeIds).map jt.varOf⟩

theorem Ctx.varOf (h : Ctx vars cs T jt) {v : Variable} (hv : v ∈ vars) : jt.varOf v.id = v := by
  unfold JoinTree.varOf
  rw [(h.get_bbnNodeDict v.id v).2 ⟨hv, rfl⟩]
  rfl

theorem Ctx.reorder (h : Ctx vars cs T jt) (it : SetIter Int) : Reorder cs (reClique it jt) := by
  refine ⟨?_⟩
  intro c hc
  have h1 : ((it.iter 0 0 c.nodeIds).map jt.varOf).Perm (c.nodeIds.map jt.varOf) := (it.perm _ _ _).map _
  have h2 : c.nodeIds.map jt.varOf = c.nodes := by
    unfold Clique.nodeIds
    rw [List.map_map]
    conv_rhs => rw [← List.map_id c.nodes]
    apply List.map_congr_left
    intro v hv
    exact h.varOf (h.sub c hc v hv)
  rw [h2] at h1
  exact h1

theorem Ctx.toDict_bbnNodes (h : Ctx vars cs T jt) (it : SetIter Int) (b : Bbn) (json : Bool) :
    (if json then (jt.toDict it b).json else jt.toDict it b).bbnNodes =
      jt.bbnNodeDict.map (fun kv => (keyOf json kv.1, (jt.nodeObj kv.2).toDict)) := by
  have hk : (Dict.keys jt.bbnNodeDict).Nodup := nodup_foldl_set_id _ _ (by simp [Dict.keys])
  have h1 : jt.getBbnNodes.map (fun v => (PyKey.int v.id, (jt.nodeObj v).toDict)) =
      jt.bbnNodeDict.map (fun kv => (keyOf false kv.1, (jt.nodeObj kv.2).toDict)) := by
    unfold JoinTree.getBbnNodes Dict.values
    rw [List.map_map]
    apply List.map_congr_left
    rintro ⟨k, v⟩ hkv
    have : v.id = k := ((h.get_bbnNodeDict k v).1 (Dict.get?_of_mem hk hkv)).2
    simp [keyOf, this]
  have h2 : (jt.toDict it b).bbnNodes = jt.bbnNodeDict.map (fun kv => (keyOf false kv.1, (jt.nodeObj kv.2).toDict)) := by
    show Dict.ofList _ = _
    rw [h1]
    exact Dict.ofList_nodup (keyOf_nodup (json := false) hk (fun _ v => (jt.nodeObj v).toDict))
  cases json with
  | false => exact h2
  | true =>
    show Dict.json (jt.toDict it b).bbnNodes = _
    rw [h2]
    exact json_keyOf hk (fun _ v => (jt.nodeObj v).toDict)

theorem JTree.key_id {all : List Clique} {pres : Clique → Prop} (h : JTree all pres T jt) {k : Str} {n : JNode} (hk : (k, n) ∈ jt.nodes) :
    n.id = k := by
  rcases (h.mem_nodes k n).1 hk with ⟨c, _, rfl, rfl⟩ | ⟨s, _, rfl, rfl⟩ <;> rfl

theorem JTree.toDict_nodes {all : List Clique} {pres : Clique → Prop} (h : JTree all pres T jt) (it : SetIter Int) (b : Bbn) (json : Bool) :
    (if json then (jt.toDict it b).json else jt.toDict it b).nodes = jt.nodes.map (fun kn => (kn.1, kn.2.toDict it)) := by
  have e : (if json then (jt.toDict it b).json else jt.toDict it b).nodes = (jt.toDict it b).nodes := by cases json <;> rfl
  rw [e]
  show Dict.ofList _ = _
  have h1 : (Dict.values jt.nodes).map (fun n => (n.id, n.toDict it)) = jt.nodes.map (fun kn => (kn.1, kn.2.toDict it)) := by
    unfold Dict.values
    rw [List.map_map]
    apply List.map_congr_left
    rintro ⟨k, n⟩ hkn
    have := h.key_id hkn
    simp [this]
  rw [h1]
  apply Dict.ofList_nodup
  rw [List.map_map]
  exact h.keys

theorem filterMap_cliques (it : SetIter Int) (jt : JoinTree) :
    (jt.nodes.map (fun kn => (kn.1, kn.2.toDict it))).filterMap (fun kv => kv.2.cliqueIds?) =
    jt.getCliques.map (fun c => it.iter 0 0 c.nodeIds) := by
  unfold JoinTree.getCliques
  rw [List.filterMap_map, List.map_filterMap]
  apply List.filterMap_congr
  rintro ⟨k, n⟩ _
  cases n <;> rfl

theorem filterMap_seps (it : SetIter Int) (jt : JoinTree) :
    (jt.nodes.map (fun kn => (kn.1, kn.2.toDict it))).filterMap (fun kv => kv.2.ends?) =
    jt.getSepSets.map (fun s => (s.left.id, s.right.id)) := by
  unfold JoinTree.getSepSets
  rw [List.filterMap_map, List.map_filterMap]
  apply List.filterMap_congr
  rintro ⟨k, n⟩ _
  cases n <;> rfl

theorem get?_map_id {α : Type} (key : α → Str) (g : α → α) : ∀ (l : List α), (l.map key).Nodup → (∀ x ∈ l, key (g x) = key x) →
    ∀ x ∈ l, Dict.get? (l.map (fun x => (key (g x), g x)) : Dict Str α) (key x) = some (g x)
  | [], _, _, x, hx => by simp at hx
  | y :: l, hn, hk, x, hx => by
      rw [List.map_cons, List.nodup_cons] at hn
      simp only [List.map_cons, Dict.get?]
      rw [hk y List.mem_cons_self]
      rcases List.mem_cons.1 hx with rfl | hx
      · simp
      · have : key y ≠ key x := fun e => hn.1 (e ▸ List.mem_map_of_mem hx)
        rw [if_neg this]
        exact get?_map_id key g l hn.2 (fun z hz => hk z (List.mem_cons_of_mem _ hz)) x hx

/-- the tree that `from_dict` builds from the cliques and edges read back -/
def JoinTree.rebuild (it : SetIter Int) (js : SetIter Str) (jt : JoinTree) : JoinTree :=
  if (Dict.values jt.edges).map (reSep (reClique it jt)) ≠ [] then
    ((Dict.values jt.edges).map (reSep (reClique it jt))).foldl (fun jt s => jt.addEdge js s) {}
  else { nodes := jt.getCliques.map (fun c => ((reClique it jt c).id, JNode.clique (reClique it jt c))) }

theorem Ctx.fromDict_eq (h : Ctx vars cs T jt) (ho : EdgesOk T jt) (it : SetIter Int) (js : SetIter Str) (b : Bbn)
    (hp : (Dict.keys b.parents).Nodup) (json : Bool) :
    JoinTree.fromDict js (if json then (jt.toDict it b).json else jt.toDict it b) =
      .ok { jt.rebuild it js with
        parentInfo := b.parents
        heap := jt.bbnNodeDict.map (fun kv => (kv.2.id, { probs := (jt.nodeObj kv.2).probs })) } := by
  have hk : (Dict.keys jt.bbnNodeDict).Nodup := nodup_foldl_set_id _ _ (by simp [Dict.keys])
  have hre := h.reorder it
  have hcl : ∀ c ∈ jt.getCliques, c ∈ cs := fun c hc => (h.spec.shape.mem_getCliques c).1 hc
  have hsep : ∀ s ∈ jt.getSepSets, s ∈ T := fun s hs => (h.spec.shape.mem_getSepSets s).1 hs
  have eE : (if json then (jt.toDict it b).json else jt.toDict it b).edges = (Dict.values jt.edges).map SepSet.id := by cases json <;> rfl
  have eP : (if json then (jt.toDict it b).json else jt.toDict it b).parentInfo = b.parents.map (fun kv => (strInt kv.1, kv.2)) := by
    have : (if json then (jt.toDict it b).json else jt.toDict it b).parentInfo =
        Dict.ofList (b.parents.map (fun kv => (strInt kv.1, kv.2))) := by cases json <;> rfl
    rw [this]
    apply Dict.ofList_nodup
    rw [List.map_map]
    have e : b.parents.map (Prod.fst ∘ fun kv : Int × List Int => (strInt kv.1, kv.2)) = (Dict.keys b.parents).map strInt := by
      unfold Dict.keys; rw [List.map_map]; rfl
    rw [e]
    exact List.Nodup.map (fun _ _ => strInt_inj) hp
  unfold JoinTree.fromDict
  rw [h.toDict_bbnNodes it b json, h.spec.shape.toDict_nodes it b json, eE, eP, List.map_map]
  have e1 : ((fun kv : PyKey × NodeDict => (kv.1, kv.2.toNode)) ∘
      fun kv : Int × Variable => (keyOf json kv.1, (jt.nodeObj kv.2).toDict)) = fun kv => (keyOf json kv.1, jt.nodeObj kv.2) := by
    funext kv; rfl
  rw [e1, Dict.ofList_nodup (keyOf_nodup hk (fun _ v => jt.nodeObj v)), filterMap_cliques, filterMap_seps]
  have m1 : (jt.getCliques.map (fun c => it.iter 0 0 c.nodeIds)).mapM (fun ids => do
        let ns ← ids.mapM (fun i => lookupNode (jt.bbnNodeDict.map (fun (kv : Int × Variable) => (keyOf json kv.1, jt.nodeObj kv.2))) i)
        (.ok (Clique.mk (ns.map BbnNode.var)) : Py Clique)) = .ok (jt.getCliques.map (reClique it jt)) := by
    rw [mapM_ok _ (fun ids => Clique.mk (ids.map jt.varOf)), List.map_map]
    · rfl
    · intro ids hids
      obtain ⟨c, hc, rfl⟩ := List.mem_map.1 hids
      have hcs := hcl c hc
      have : (it.iter 0 0 c.nodeIds).mapM (fun i => lookupNode (jt.bbnNodeDict.map (fun (kv : Int × Variable) => (keyOf json kv.1, jt.nodeObj kv.2))) i) =
          .ok ((it.iter 0 0 c.nodeIds).map (fun i => jt.nodeObj (jt.varOf i))) := by
        apply mapM_ok
        intro i hi
        rw [(it.perm _ _ _).mem_iff] at hi
        obtain ⟨v, hv, rfl⟩ := List.mem_map.1 hi
        have hg := (h.get_bbnNodeDict v.id v).2 ⟨h.sub c hcs v hv, rfl⟩
        rw [lookupNode_keyOf json (fun _ v => jt.nodeObj v) _ hg, h.varOf (h.sub c hcs v hv)]
      simp only [bind, Except.bind, this]
      congr 1
      congr 1
      rw [List.map_map]
      rfl
  have hids : ∀ c ∈ jt.getCliques, (reClique it jt c).id = c.id := fun c hc => hre.id (hcl c hc)
  have hsids : ∀ s ∈ jt.getSepSets, (reSep (reClique it jt) s).id = s.id := fun s hs => hre.sepId (h.spec.shape.good s (hsep s hs))
  have d1 : Dict.ofList ((jt.getCliques.map (reClique it jt)).map (fun c => (c.id, c))) =
      jt.getCliques.map (fun c => ((reClique it jt c).id, reClique it jt c)) := by
    rw [Dict.ofList_nodup]
    · rw [List.map_map]; rfl
    · rw [List.map_map, List.map_map]
      have : jt.getCliques.map ((Prod.fst ∘ fun c : Clique => (c.id, c)) ∘ reClique it jt) = jt.getCliques.map Clique.id :=
        List.map_congr_left (fun c hc => hids c hc)
      rw [this]
      exact h.spec.shape.cliques_nodup
  have m2 : (jt.getSepSets.map (fun s => (s.left.id, s.right.id))).mapM (fun lr => do
        let l ← Dict.getItem (jt.getCliques.map (fun c => ((reClique it jt c).id, reClique it jt c)) : Dict Str Clique) lr.1
        let r ← Dict.getItem (jt.getCliques.map (fun c => ((reClique it jt c).id, reClique it jt c)) : Dict Str Clique) lr.2
        (.ok (SepSet.mk' l r) : Py SepSet)) = .ok (jt.getSepSets.map (reSep (reClique it jt))) := by
    rw [List.mapM_map]
    apply mapM_ok
    · intro s hs
      have hsT := hsep s hs
      obtain ⟨t1, t2⟩ := h.spec.shape.touched s hsT
      have hl : s.left ∈ jt.getCliques := (h.spec.shape.mem_getCliques _).2 t1
      have hr : s.right ∈ jt.getCliques := (h.spec.shape.mem_getCliques _).2 t2
      have g1 := get?_map_id Clique.id (reClique it jt) jt.getCliques h.spec.shape.cliques_nodup hids s.left hl
      have g2 := get?_map_id Clique.id (reClique it jt) jt.getCliques h.spec.shape.cliques_nodup hids s.right hr
      simp only [bind, Except.bind, Function.comp_apply]
      rw [Dict.getItem_of_get? g1, Dict.getItem_of_get? g2]
      rfl
  have d2 : Dict.ofList ((jt.getSepSets.map (reSep (reClique it jt))).map (fun s => (s.id, s))) =
      jt.getSepSets.map (fun s => ((reSep (reClique it jt) s).id, reSep (reClique it jt) s)) := by
    rw [Dict.ofList_nodup]
    · rw [List.map_map]; rfl
    · rw [List.map_map, List.map_map]
      have : jt.getSepSets.map ((Prod.fst ∘ fun c : SepSet => (c.id, c)) ∘ reSep (reClique it jt)) = jt.getSepSets.map SepSet.id :=
        List.map_congr_left (fun c hc => hsids c hc)
      rw [this]
      exact h.spec.shape.sepSets_nodup
  have m3 : ((Dict.values jt.edges).map SepSet.id).mapM (fun e => Dict.getItem
      (jt.getSepSets.map (fun s => ((reSep (reClique it jt) s).id, reSep (reClique it jt) s)) : Dict Str SepSet) e) =
      .ok ((Dict.values jt.edges).map (reSep (reClique it jt))) := by
    rw [List.mapM_map, mapM_ok _ (reSep (reClique it jt))]
    intro s hs
    have hs' : s ∈ jt.getSepSets := (h.spec.shape.mem_getSepSets s).2 (ho.perm.mem_iff.1 hs)
    have g := get?_map_id SepSet.id (reSep (reClique it jt)) jt.getSepSets h.spec.shape.sepSets_nodup hsids s hs'
    exact Dict.getItem_of_get? g
  have m4 : (b.parents.map (fun kv => (strInt kv.1, kv.2))).mapM (fun kv => do
      let k ← parseInt kv.1
      (.ok (k, kv.2) : Py (Int × List Int))) = .ok b.parents := by
    rw [List.mapM_map, mapM_ok _ (fun kv => kv)]
    · rw [List.map_id']
    · rintro ⟨k, l⟩ _
      simp only [bind, Except.bind, Function.comp_apply, parseInt_strInt]
  have d3 : Dict.ofList b.parents = b.parents := Dict.ofList_nodup hp
  have d4 : Dict.ofList ((jt.bbnNodeDict.map (fun kv => (keyOf json kv.1, jt.nodeObj kv.2))).map
      (fun kn => (kn.2.var.id, ({ probs := kn.2.probs } : NodeObj)))) =
      jt.bbnNodeDict.map (fun kv => (kv.2.id, { probs := (jt.nodeObj kv.2).probs })) := by
    rw [List.map_map, Dict.ofList_nodup]
    · rfl
    · rw [List.map_map]
      have : jt.bbnNodeDict.map (Prod.fst ∘ (fun kn : PyKey × BbnNode => (kn.2.var.id, ({ probs := kn.2.probs } : NodeObj))) ∘
          fun kv : Int × Variable => (keyOf json kv.1, jt.nodeObj kv.2)) = Dict.keys jt.bbnNodeDict := by
        unfold Dict.keys
        apply List.map_congr_left
        rintro ⟨k, v⟩ hkv
        exact ((h.get_bbnNodeDict k v).1 (Dict.get?_of_mem hk hkv)).2
      rw [this]
      exact hk
  have d5 : (jt.getCliques.map (fun c => ((reClique it jt c).id, reClique it jt c))).map (fun kv => (kv.1, JNode.clique kv.2)) =
      jt.getCliques.map (fun c => ((reClique it jt c).id, JNode.clique (reClique it jt c))) := by rw [List.map_map]; rfl
  simp only [bind, Except.bind] at m1 m2 m4 ⊢
  rw [m1]
  simp only
  rw [d1, m2]
  simp only
  rw [d2, m3]
  simp only
  rw [m4]
  simp only
  rw [d3, d4, d5]
  rfl

theorem Ctx.rebuild_spec (h : Ctx vars cs T jt) (ho : EdgesOk T jt) (hr : Reloadable jt) (it : SetIter Int) (js : SetIter Str) :
    ∃ T', JTSpec (cs.map (reClique it jt)) T' (jt.rebuild it js) ∧ T'.Perm (T.map (reSep (reClique it jt))) ∧
      EdgesOk T' (jt.rebuild it js) := by
  have hre := h.reorder it
  have hends : ∀ s ∈ T, sl (reSep (reClique it jt) s) = sl s ∧ sr (reSep (reClique it jt) s) = sr s := fun s hs =>
    ⟨hre.fs (h.spec.shape.good s hs).left, hre.fs (h.spec.shape.good s hs).right⟩
  have hcf := hre.cfam h.spec.fam
  by_cases he : (Dict.values jt.edges).map (reSep (reClique it jt)) = []
  · have hT : T = [] := by
      rw [List.map_eq_nil_iff] at he
      have := ho.perm
      rw [he] at this
      exact List.nil_perm.1 this
    subst hT
    have eq : jt.rebuild it js = { nodes := jt.getCliques.map (fun c => ((reClique it jt c).id, JNode.clique (reClique it jt c))) } := by
      unfold JoinTree.rebuild
      rw [if_neg (by simpa using he)]
    have hmem : ∀ c, c ∈ jt.getCliques ↔ c ∈ cs := h.spec.shape.mem_getCliques
    have hids : ∀ c ∈ jt.getCliques, (reClique it jt c).id = c.id := fun c hc => hre.id ((hmem c).1 hc)
    have hkeys : (Dict.keys (jt.getCliques.map (fun c => ((reClique it jt c).id, JNode.clique (reClique it jt c))))).Nodup := by
      unfold Dict.keys
      rw [List.map_map]
      have : jt.getCliques.map (Prod.fst ∘ fun c => ((reClique it jt c).id, JNode.clique (reClique it jt c))) =
          jt.getCliques.map Clique.id := List.map_congr_left (fun c hc => hids c hc)
      rw [this]
      exact h.spec.shape.cliques_nodup
    have hsh : JTree (cs.map (reClique it jt)) (fun c => c ∈ cs.map (reClique it jt)) [] (jt.rebuild it js) := by
      rw [eq]
      refine ⟨fun c hc => hc, by simp, by simp, hkeys, ?_, ?_, ?_⟩
      · intro k n
        show Dict.get? (jt.getCliques.map _) k = some n ↔ _
        rw [Dict.get?_eq_some_iff hkeys, List.mem_map]
        constructor
        · rintro ⟨c, hc, e⟩
          cases e
          exact Or.inl ⟨_, List.mem_map_of_mem ((hmem c).1 hc), rfl, rfl⟩
        · rintro (⟨c, hc, rfl, rfl⟩ | ⟨s, hs, _⟩)
          · obtain ⟨d, hd, rfl⟩ := List.mem_map.1 hc
            exact ⟨d, (hmem d).2 hd, rfl⟩
          · simp at hs
      · intro x y; simp [ddGet, Dict.get?]
      · intro x; simp [ddGet, Dict.get?]
    refine ⟨[], hre.spec h.spec hsh (by simp), by simp, ?_⟩
    rw [eq]
    exact ⟨by simp, by simp [Dict.values]⟩
  · have eq : jt.rebuild it js = ((Dict.values jt.edges).map (reSep (reClique it jt))).foldl (fun jt s => jt.addEdge js s) {} := by
      unfold JoinTree.rebuild
      rw [if_pos he]
    set es := (Dict.values jt.edges).map (reSep (reClique it jt)) with hes
    have hperm : es.Perm (T.map (reSep (reClique it jt))) := ho.perm.map _
    have hrperm : es.reverse.Perm (T.map (reSep (reClique it jt))) := (List.reverse_perm es).trans hperm
    have hgood : ∀ s ∈ es, GoodSep (cs.map (reClique it jt)) s := by
      intro s hs
      obtain ⟨t, ht, rfl⟩ := List.mem_map.1 (hperm.mem_iff.1 hs)
      exact hre.good h.spec.fam (h.spec.shape.good t ht)
    have hF : Forest sl sr (es.reverse ++ []) := by
      rw [List.append_nil]
      exact (Forest.map hends h.spec.forest).perm hrperm.symm
    obtain ⟨h1, h2⟩ := load_edges js hcf es _ {} [] (empty_jtree _) EdgesOk.empty hF hgood
    rw [← eq, List.append_nil] at h1 h2
    refine ⟨es.reverse, hre.spec h.spec (h1.congr ?_) hrperm, hrperm, h2⟩
    intro c
    constructor
    · rintro (hc | ⟨s, hs, rfl | rfl⟩)
      · exact hc.elim
      · exact (hgood s hs).left
      · exact (hgood s hs).right
    · intro hc
      right
      obtain ⟨d, hd, rfl⟩ := List.mem_map.1 hc
      rcases hr with hr | hr
      · exact absurd (by rw [hes, hr]; rfl) he
      · obtain ⟨s, hs, e⟩ := hr d ((h.spec.shape.mem_getCliques d).2 hd)
        refine ⟨reSep (reClique it jt) s, List.mem_map_of_mem hs, ?_⟩
        rcases e with rfl | rfl
        · exact Or.inl rfl
        · exact Or.inr rfl

/-- `from_dict(to_dict(jt, bbn))` -/
theorem Ctx.reload (h : Ctx vars cs T jt) (ho : EdgesOk T jt) (hr : Reloadable jt) (it : SetIter Int) (js : SetIter Str) {b : Bbn}
    (hp : (Dict.keys b.parents).Nodup) (json : Bool) :
    ∃ T' jt', JoinTree.fromDict js (if json then (jt.toDict it b).json else jt.toDict it b) = .ok jt' ∧
      Ctx vars (cs.map (reClique it jt)) T' jt' ∧ T'.Perm (T.map (reSep (reClique it jt))) ∧ EdgesOk T' jt' ∧
      jt'.parentInfo = b.parents ∧
      ∀ v ∈ vars, Dict.get? jt'.heap v.id = some { probs := (jt.nodeObj v).probs } := by
  obtain ⟨T', h1, h2, h3⟩ := h.rebuild_spec ho hr it js
  have hre := h.reorder it
  have hk : (Dict.keys jt.bbnNodeDict).Nodup := nodup_foldl_set_id _ _ (by simp [Dict.keys])
  refine ⟨T', _, h.fromDict_eq ho it js b hp json, ⟨h1.frame rfl rfl, h.vn, h.vals, ?_, ?_, ?_⟩, h2, h3.frame rfl, rfl, ?_⟩
  · intro c hc v hv
    obtain ⟨d, hd, rfl⟩ := List.mem_map.1 hc
    exact h.sub d hd v ((hre.perm d hd).mem_iff.1 hv)
  · intro v hv
    obtain ⟨c, hc, hvc⟩ := h.cover v hv
    exact ⟨_, List.mem_map_of_mem hc, (hre.perm c hc).mem_iff.2 hvc⟩
  · intro c hc
    obtain ⟨d, hd, rfl⟩ := List.mem_map.1 hc
    intro e
    have := hre.perm d hd
    rw [e] at this
    exact h.ne d hd (List.nil_perm.1 this)
  · intro v hv
    show Dict.get? (jt.bbnNodeDict.map _) v.id = _
    have e : jt.bbnNodeDict.map (fun kv => (kv.2.id, ({ probs := (jt.nodeObj kv.2).probs } : NodeObj))) =
        jt.bbnNodeDict.map (fun kv => ((fun i => i) kv.1, (fun _ (v : Variable) => ({ probs := (jt.nodeObj v).probs } : NodeObj)) kv.1 kv.2)) := by
      apply List.map_congr_left
      rintro ⟨k, v⟩ hkv
      have := ((h.get_bbnNodeDict k v).1 (Dict.get?_of_mem hk hkv)).2
      simp [this]
    rw [e]
    have := Dict.get?_mapKey (f := fun i : Int => i) (fun _ _ h => h) (fun _ (v : Variable) => ({ probs := (jt.nodeObj v).probs } : NodeObj))
      jt.bbnNodeDict v.id
    rw [this, (h.get_bbnNodeDict v.id v).2 ⟨hv, rfl⟩]
    rfl

/-- a tree without an isolated clique, or a single clique, can be read back -/
theorem Ctx.reloadable (h : Ctx vars cs T jt) (ho : EdgesOk T jt) (hc : ∀ c ∈ cs, ∀ d ∈ cs, Conn sl sr T c.fs d.fs) : Reloadable jt := by
  by_cases hT : T = []
  · left
    have := ho.perm
    rw [hT] at this
    exact List.perm_nil.1 this
  · right
    intro c hcm
    have hcc := (h.spec.shape.mem_getCliques c).1 hcm
    by_contra hno
    push Not at hno
    obtain ⟨s, hs⟩ := List.exists_mem_of_ne_nil T hT
    have hiso : ∀ t ∈ T, sl t ≠ c.fs ∧ sr t ≠ c.fs := by
      intro t ht
      have := hno t (ho.perm.mem_iff.2 ht)
      have hg := h.spec.shape.good t ht
      exact ⟨fun e => this.1 (h.spec.fam.fs_inj hg.left hcc e).symm, fun e => this.2 (h.spec.fam.fs_inj hg.right hcc e).symm⟩
    have := Conn.isolated hiso (hc s.left (h.spec.shape.good s hs).left c hcc)
    exact (hiso s hs).1 (this.2 rfl)

end

end PyBBN
