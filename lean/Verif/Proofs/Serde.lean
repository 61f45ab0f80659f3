import Verif.Model.Serde
import Verif.Proofs.Reapply

/-! Dictionaries written and read back. -/

namespace PyBBN

/-! ### dictionaries -/

section
variable {K V W : Type} [DecidableEq K]

theorem foldl_set_append : ∀ (l : List (K × V)) (d : Dict K V), (Dict.keys d ++ l.map Prod.fst).Nodup →
    l.foldl (fun d kv => Dict.set d kv.1 kv.2) d = d ++ l
  | [], d, _ => by simp
  | kv :: l, d, h => by
      rw [List.foldl_cons]
      have hk : kv.1 ∉ Dict.keys d := by
        intro hm
        rw [List.map_cons, List.nodup_append] at h
        exact h.2.2 _ hm _ List.mem_cons_self rfl
      rw [Dict.set_of_not_mem hk, foldl_set_append l]
      · simp
      · have : Dict.keys (d ++ [(kv.1, kv.2)]) ++ l.map Prod.fst = Dict.keys d ++ (kv :: l).map Prod.fst := by
          simp [Dict.keys]
        rw [this]; exact h

theorem Dict.ofList_nodup {l : List (K × V)} (h : (l.map Prod.fst).Nodup) : Dict.ofList l = l := by
  unfold Dict.ofList
  rw [foldl_set_append l [] (by simpa [Dict.keys] using h)]
  simp

theorem Dict.get?_mapKey {K' : Type} [DecidableEq K'] {f : K → K'} (hf : ∀ a b, f a = f b → a = b) (g : K → V → W) (d : Dict K V)
    (k : K) : Dict.get? (d.map (fun kv => (f kv.1, g kv.1 kv.2))) (f k) = (Dict.get? d k).map (g k) := by
  induction d with
  | nil => rfl
  | cons kv d ih =>
    obtain ⟨a, v⟩ := kv
    simp only [List.map_cons, Dict.get?]
    by_cases e : a = k
    · subst e; simp
    · have : f a ≠ f k := fun h => e (hf _ _ h)
      simp [this, e, ih]

end

/-- the two kinds of keys: as written, and after JSON -/
def keyOf (json : Bool) (i : Int) : PyKey := if json then .str (strInt i) else .int i

theorem keyOf_inj {json : Bool} {a b : Int} (h : keyOf json a = keyOf json b) : a = b := by
  unfold keyOf at h
  cases json
  · simpa using h
  · simp only [if_true, PyKey.str.injEq] at h
    exact strInt_inj h

theorem lookupNode_keyOf {V W : Type} (json : Bool) (g : Int → V → W) (d : Dict Int V) {i : Int} {v : V} (h : Dict.get? d i = some v) :
    lookupNode (d.map (fun kv => (keyOf json kv.1, g kv.1 kv.2))) i = .ok (g i v) := by
  have h1 : Dict.get? (d.map (fun kv => (keyOf json kv.1, g kv.1 kv.2))) (keyOf json i) = some (g i v) := by
    rw [Dict.get?_mapKey (fun _ _ => keyOf_inj) g d i, h]; rfl
  unfold lookupNode
  cases json with
  | false =>
    have h2 : Dict.get? (d.map (fun kv => (keyOf false kv.1, g kv.1 kv.2))) (.int i) = some (g i v) := h1
    have h3 : Dict.has (d.map (fun kv => (keyOf false kv.1, g kv.1 kv.2))) (.int i) = true := by
      unfold Dict.has; rw [h2]; rfl
    rw [if_pos h3, Dict.getItem_of_get? h2]
  | true =>
    have h3 : ¬ Dict.has (d.map (fun kv => (keyOf true kv.1, g kv.1 kv.2))) (.int i) = true := by
      rw [Dict.has_iff]
      intro hm
      obtain ⟨x, hx, e⟩ := List.mem_map.1 hm
      obtain ⟨y, hy, rfl⟩ := List.mem_map.1 hx
      simp [keyOf] at e
    have h2 : Dict.get? (d.map (fun kv => (keyOf true kv.1, g kv.1 kv.2))) (.str (strInt i)) = some (g i v) := h1
    rw [if_neg h3, Dict.getItem_of_get? h2]

theorem keyOf_nodup {V W : Type} {json : Bool} {d : Dict Int V} (h : (Dict.keys d).Nodup) (g : Int → V → W) :
    ((d.map (fun kv => (keyOf json kv.1, g kv.1 kv.2))).map Prod.fst).Nodup := by
  rw [List.map_map]
  have : (Prod.fst ∘ fun kv : Int × V => (keyOf json kv.1, g kv.1 kv.2)) = (fun kv => keyOf json kv.1) := rfl
  rw [this]
  have e : (d.map (fun kv => keyOf json kv.1)) = (Dict.keys d).map (keyOf json) := by
    unfold Dict.keys; rw [List.map_map]; rfl
  rw [e]
  exact List.Nodup.map (fun _ _ => keyOf_inj) h

theorem json_keyOf {V W : Type} {d : Dict Int V} (h : (Dict.keys d).Nodup) (g : Int → V → W) :
    Dict.json (d.map (fun kv => (keyOf false kv.1, g kv.1 kv.2))) = d.map (fun kv => (keyOf true kv.1, g kv.1 kv.2)) := by
  unfold Dict.json
  rw [List.map_map]
  exact Dict.ofList_nodup (keyOf_nodup (json := true) h g)

/-! ### `int(str(i))` -/

theorem splitOn_free {c : Char} : ∀ {s : Str}, c ∉ s → splitOn c s = [s]
  | [], _ => rfl
  | a :: s, h => by
      have h1 : ¬ a = c := fun e => h (by rw [e]; exact List.mem_cons_self)
      rw [splitOn, if_neg h1, splitOn_free (fun hc => h (List.mem_cons_of_mem _ hc))]
      rfl

theorem dropWhile_free {p : Char → Bool} {s : Str} (h : ∀ c ∈ s, p c = false) : s.dropWhile p = s := by
  cases s with
  | nil => rfl
  | cons a s => rw [List.dropWhile_cons_of_neg (by rw [h a List.mem_cons_self]; simp)]

theorem parseInt_strInt (i : Int) : parseInt (strInt i) = .ok i := by
  have hall : (Nat.toDigits 10 i.natAbs).all Char.isDigit = true := by
    rw [List.all_eq_true]; intro c hc; exact toDigits_isDigit hc
  have hne : Nat.toDigits 10 i.natAbs ≠ [] := by
    intro h
    have := Nat.length_toDigits_pos (b := 10) (n := i.natAbs)
    rw [h] at this
    simp at this
  have hrange : ∀ c ∈ strInt i, 45 ≤ c.toNat ∧ c.toNat ≤ 57 := by
    intro c hc
    rcases strInt_chars hc with rfl | h
    · decide
    · simp only [Char.isDigit, Bool.and_eq_true, decide_eq_true_eq] at h
      obtain ⟨h1, h2⟩ := h
      have h3 : 48 ≤ c.toNat := h1
      have h4 : c.toNat ≤ 57 := h2
      omega
  have hsp : ∀ c ∈ strInt i, intSpace (strInt i) c = false := by
    intro c hc
    have h := hrange c hc
    unfold intSpace
    rw [if_pos (by
      rw [List.all_eq_true]
      intro d hd
      have := hrange d hd
      rw [decide_eq_true_eq]
      omega)]
    rw [Bool.or_eq_false_iff, decide_eq_false_iff_not, decide_eq_false_iff_not]
    omega
  have hus : ∀ c ∈ Nat.toDigits 10 i.natAbs, c ≠ '_' := by
    rintro c hc rfl
    have := toDigits_isDigit hc
    simp [Char.isDigit] at this
  have hfil : (Nat.toDigits 10 i.natAbs).filter (fun c => decide (c ≠ '_')) = Nat.toDigits 10 i.natAbs := by
    rw [List.filter_eq_self]
    intro c hc
    rw [decide_eq_true_eq]
    exact hus c hc
  have hchk : (splitOn '_' (Nat.toDigits 10 i.natAbs)).all (fun ds => decide (ds ≠ []) && ds.all Char.isDigit) = true := by
    rw [splitOn_free (fun h => hus _ h rfl)]
    simp only [List.all_cons, List.all_nil, Bool.and_true, Bool.and_eq_true, decide_eq_true_eq]
    exact ⟨hne, hall⟩
  unfold parseInt
  rw [dropWhile_free hsp, dropWhile_free (fun c hc => hsp c (List.mem_reverse.1 hc)), List.reverse_reverse]
  have hsg : intSign (strInt i) = (if i < 0 then -1 else 1, Nat.toDigits 10 i.natAbs) := by
    unfold strInt
    split
    · rfl
    · unfold intSign
      split
      · rename_i ds e
        exact absurd e (toDigits_ne_cons_minus _ _)
      · rename_i ds e
        have := toDigits_isDigit (n := i.natAbs) (c := '+') (by rw [e]; exact List.mem_cons_self)
        simp [Char.isDigit] at this
      · rfl
  rw [hsg]
  simp only
  rw [if_pos hchk, hfil, Nat.ofDigitChars_ten_toDigits]
  congr 1
  split <;> omega

/-! ### networks -/

/-- every child has a parent, once -/
structure ParInv (parents : Dict Int (List Int)) : Prop where
  keys : (Dict.keys parents).Nodup
  vals : ∀ k l, (k, l) ∈ parents → l ≠ [] ∧ l.Nodup

theorem ParInv.edgeAdded {parents : Dict Int (List Int)} (h : ParInv parents) (e : Edge BbnNode) :
    ParInv (Bbn.edgeAdded parents e) := by
  have hg : ∀ k l, Dict.get? parents k = some l → l ≠ [] ∧ l.Nodup := fun k l hl => h.vals k l (Dict.mem_of_get? hl)
  have hk' : (Dict.keys (Dict.setDefault parents (nid e.j) [])).Nodup := Dict.nodup_keys_setDefault h.keys _ _
  have hget : ∀ k, Dict.get? (Dict.setDefault parents (nid e.j) []) k =
      if nid e.j = k then some (ddGet parents (nid e.j)) else Dict.get? parents k := by
    intro k
    rw [Dict.get?_setDefault]
    split
    · unfold ddGet; rfl
    · rfl
  have hdd : ddGet (Dict.setDefault parents (nid e.j) []) (nid e.j) = ddGet parents (nid e.j) := by
    unfold ddGet
    rw [hget]
    simp [ddGet]
  have hnd : (ddGet parents (nid e.j)).Nodup := by
    unfold ddGet
    cases hq : Dict.get? parents (nid e.j) with
    | none => simp
    | some l => exact (hg _ _ hq).2
  unfold Bbn.edgeAdded
  simp only
  rw [hdd]
  split
  · rename_i hmem
    refine ⟨hk', ?_⟩
    intro k l hkl
    have := Dict.get?_of_mem hk' hkl
    rw [hget] at this
    split at this
    · cases this
      exact ⟨List.ne_nil_of_mem hmem, hnd⟩
    · exact hg _ _ this
  · rename_i hmem
    refine ⟨Dict.nodup_keys_set hk' _ _, ?_⟩
    intro k l hkl
    have := Dict.get?_of_mem (Dict.nodup_keys_set hk' _ _) hkl
    rw [Dict.get?_set] at this
    split at this
    · cases this
      refine ⟨by simp, ?_⟩
      rw [List.nodup_append]
      refine ⟨hnd, by simp, ?_⟩
      intro a ha b hb
      simp at hb
      subst hb
      exact fun e => hmem (e ▸ ha)
    · rename_i hne
      rw [hget, if_neg hne] at this
      exact hg _ _ this

theorem parInv_run (ops : List BOp) : ParInv (Bbn.run ops).parents := by
  refine foldl_inv (fun b : Bbn => ParInv b.parents) _ ?_ ops _ ⟨by simp [Bbn.empty, Dict.keys], by simp [Bbn.empty]⟩
  intro b op h
  cases op with
  | addNode n => exact h
  | addEdge i j => exact h.edgeAdded _

/-- re-inserting the parents of one child -/
theorem foldl_edgeAdded_child (c : Int) : ∀ (ps qs : List Int) (P : Dict Int (List Int)) (es : List (Edge BbnNode)),
    c ∉ Dict.keys P → (qs ++ ps).Nodup → qs ≠ [] → es.map (fun e => (nid e.i, nid e.j)) = ps.map (fun p => (p, c)) →
    es.foldl (fun P e => Bbn.edgeAdded P e) (P ++ [(c, qs)]) = P ++ [(c, qs ++ ps)]
  | [], qs, P, es, _, _, _, he => by
      rw [List.map_nil, List.map_eq_nil_iff] at he
      subst he
      simp
  | p :: ps, qs, P, [], _, _, _, he => by simp at he
  | p :: ps, qs, P, e :: es, hc, hn, hq, he => by
      simp only [List.map_cons, List.cons.injEq, Prod.mk.injEq] at he
      obtain ⟨⟨e1, e2⟩, e3⟩ := he
      have hget : Dict.get? (P ++ [(c, qs)]) c = some qs := by
        rw [Dict.get?_append, (Dict.get?_eq_none_iff P c).2 hc]
        simp [Dict.get?]
      have hstep : Bbn.edgeAdded (P ++ [(c, qs)]) e = P ++ [(c, qs ++ [p])] := by
        unfold Bbn.edgeAdded
        rw [e1, e2]
        have hmem : c ∈ Dict.keys (P ++ [(c, qs)]) := Dict.mem_keys_of_get? hget
        simp only
        rw [Dict.setDefault_of_mem hmem]
        have hdd : ddGet (P ++ [(c, qs)]) c = qs := by unfold ddGet; rw [hget]; rfl
        rw [hdd]
        have hp : p ∉ qs := by
          intro hm
          rw [List.nodup_append] at hn
          exact hn.2.2 p hm p List.mem_cons_self rfl
        rw [if_neg hp]
        have : ∀ (P : Dict Int (List Int)), c ∉ Dict.keys P → Dict.set (P ++ [(c, qs)]) c (qs ++ [p]) = P ++ [(c, qs ++ [p])] := by
          intro P
          induction P with
          | nil => intro _; simp [Dict.set]
          | cons kv P ih =>
            intro h
            have h1 : kv.1 ≠ c := fun e => h (by simp [Dict.keys, e])
            have h2 : c ∉ Dict.keys P := fun hm => h (by
              unfold Dict.keys at hm ⊢
              rw [List.map_cons]
              exact List.mem_cons_of_mem _ hm)
            obtain ⟨k, v⟩ := kv
            simp only [List.cons_append, Dict.set]
            rw [if_neg h1, ih h2]
        exact this P hc
      rw [List.foldl_cons, hstep, foldl_edgeAdded_child c ps (qs ++ [p]) P es hc (by simpa using hn) (by simp) e3]
      simp

/-- re-inserting all parents, child by child -/
theorem foldl_edgeAdded_all : ∀ (R P : Dict Int (List Int)) (es : List (Edge BbnNode)), (Dict.keys (P ++ R)).Nodup →
    (∀ k l, (k, l) ∈ R → l ≠ [] ∧ l.Nodup) →
    es.map (fun e => (nid e.i, nid e.j)) = R.flatMap (fun kv => kv.2.map (fun p => (p, kv.1))) →
    es.foldl (fun P e => Bbn.edgeAdded P e) P = P ++ R
  | [], P, es, _, _, he => by
      rw [List.flatMap_nil, List.map_eq_nil_iff] at he
      subst he
      simp
  | (c, ps) :: R, P, es, hk, hv, he => by
      obtain ⟨hne, hnd⟩ := hv c ps List.mem_cons_self
      rw [List.flatMap_cons] at he
      obtain ⟨es1, es2, rfl, h1, h2⟩ := List.map_eq_append_iff.1 he
      have hc : c ∉ Dict.keys P := by
        unfold Dict.keys at hk ⊢
        rw [List.map_append, List.map_cons, List.nodup_append] at hk
        exact fun hm => hk.2.2 c hm c List.mem_cons_self rfl
      rw [List.foldl_append]
      cases ps with
      | nil => exact absurd rfl hne
      | cons p ps =>
        cases es1 with
        | nil => simp at h1
        | cons e es1 =>
          simp only [List.map_cons, List.cons.injEq, Prod.mk.injEq] at h1
          obtain ⟨⟨e1, e2⟩, e3⟩ := h1
          have hstep : Bbn.edgeAdded P e = P ++ [(c, [p])] := by
            unfold Bbn.edgeAdded
            rw [e1, e2]
            simp only
            rw [Dict.setDefault_of_not_mem hc]
            have hget : Dict.get? (P ++ [(c, ([] : List Int))]) c = some [] := by
              rw [Dict.get?_append, (Dict.get?_eq_none_iff P c).2 hc]
              simp [Dict.get?]
            have hdd : ddGet (P ++ [(c, ([] : List Int))]) c = [] := by unfold ddGet; rw [hget]; rfl
            rw [hdd, if_neg (by simp)]
            have : ∀ (P : Dict Int (List Int)), c ∉ Dict.keys P → Dict.set (P ++ [(c, ([] : List Int))]) c ([] ++ [p]) = P ++ [(c, [p])] := by
              intro P
              induction P with
              | nil => intro _; simp [Dict.set]
              | cons kv P ih =>
                intro h
                have h1 : kv.1 ≠ c := fun e => h (by simp [Dict.keys, e])
                have h2 : c ∉ Dict.keys P := fun hm => h (by
                  unfold Dict.keys at hm ⊢
                  rw [List.map_cons]
                  exact List.mem_cons_of_mem _ hm)
                obtain ⟨k, v⟩ := kv
                simp only [List.cons_append, Dict.set]
                rw [if_neg h1, ih h2]
            exact this P hc
          rw [List.foldl_cons, hstep, foldl_edgeAdded_child c ps [p] P es1 hc (by simpa using hnd) (by simp) e3,
            foldl_edgeAdded_all R _ es2 (by simpa [Dict.keys] using hk) (fun k l h => hv k l (List.mem_cons_of_mem _ h)) h2]
          simp

theorem foldlM_ok {α β : Type} (f : β → α → Py β) (g : β → α → β) : ∀ (l : List α) (b : β), (∀ x ∈ l, ∀ b, f b x = .ok (g b x)) →
    l.foldlM f b = .ok (l.foldl g b)
  | [], b, _ => rfl
  | x :: l, b, h => by
      rw [List.foldlM_cons, h x List.mem_cons_self b]
      exact foldlM_ok f g l _ (fun y hy => h y (List.mem_cons_of_mem _ hy))

/-- every edge of a network was inserted -/
theorem edges_from_ops (ops : List BOp) : ∀ e ∈ (Bbn.run ops).toGraph.getEdges, ∃ i j, BOp.addEdge i j ∈ ops ∧ e = ⟨i, j, .directed⟩ := by
  induction ops using List.reverseRecOn with
  | nil => intro e he; simp [Bbn.run, Bbn.empty, Graph.getEdges, Dict.values] at he
  | append_singleton ops op ih =>
    intro e he
    have hrun : Bbn.run (ops ++ [op]) = BOp.step (Bbn.run ops) op := by simp [Bbn.run]
    rw [hrun] at he
    have hold : e ∈ (Bbn.run ops).toGraph.getEdges → ∃ i j, BOp.addEdge i j ∈ ops ++ [op] ∧ e = ⟨i, j, .directed⟩ := by
      intro h
      obtain ⟨i, j, h1, h2⟩ := ih e h
      exact ⟨i, j, List.mem_append_left _ h1, h2⟩
    cases op with
    | addNode n => exact hold he
    | addEdge i j =>
      have : (BOp.step (Bbn.run ops) (.addEdge i j)).toGraph = ((Bbn.run ops).addEdge ⟨i, j, .directed⟩).toGraph := rfl
      rw [this, bbn_addEdge_graph] at he
      simp only [Graph.addEdgeWith, if_true, Graph.insertEdge, Graph.getEdges, Dict.values, List.mem_map] at he
      obtain ⟨x, hx, rfl⟩ := he
      rcases mem_set_iff hx with rfl | hx
      · exact ⟨i, j, by simp, rfl⟩
      · exact hold (List.mem_map_of_mem hx)

/-- the node object registered for an id (or a dummy) -/
def Bbn.nodeOf (b : Bbn) (i : Int) : BbnNode := (Dict.get? b.nodes i).getD ⟨⟨i, [], []⟩, []⟩

theorem toDict_toNode (n : BbnNode) : n.toDict.toNode = n := rfl

/-- the calls that `from_dict` makes on the result of `to_dict` -/
def Bbn.reload (b : Bbn) : List BOp :=
  b.toGraph.getNodes.map BOp.addNode ++
    b.toDict.edges.map (fun e => BOp.addEdge (b.nodeOf e.pa) (b.nodeOf e.ch))

theorem Bbn.toDict_nodes {b : Bbn} (h : BbnInv b) (json : Bool) :
    (if json then b.toDict.json else b.toDict).nodes = b.nodes.map (fun kv => (keyOf json kv.1, kv.2.toDict)) := by
  have h1 : b.toGraph.getNodes.map (fun n => (PyKey.int n.var.id, n.toDict)) =
      b.nodes.map (fun kv => (keyOf false kv.1, kv.2.toDict)) := by
    unfold Graph.getNodes Dict.values
    rw [List.map_map]
    apply List.map_congr_left
    rintro ⟨k, n⟩ hkn
    have : n.var.id = k := h.ginv.key k n (Dict.get?_of_mem h.ginv.nodup hkn)
    simp [keyOf, this]
  have h2 : b.toDict.nodes = b.nodes.map (fun kv => (keyOf false kv.1, kv.2.toDict)) := by
    show Dict.ofList _ = _
    rw [h1]
    exact Dict.ofList_nodup (keyOf_nodup (json := false) h.ginv.nodup (fun _ n => n.toDict))
  cases json with
  | false => exact h2
  | true =>
    show Dict.json b.toDict.nodes = _
    rw [h2]
    exact json_keyOf h.ginv.nodup (fun _ n => n.toDict)

theorem mem_toDict_edges {b : Bbn} (h : ParInv b.parents) (p c : Int) :
    (⟨p, c⟩ : EdgeDict) ∈ b.toDict.edges ↔ p ∈ ddGet b.parents c := by
  simp only [Bbn.toDict, List.mem_flatMap, List.mem_map]
  constructor
  · rintro ⟨⟨k, l⟩, hkl, q, hq, e⟩
    cases e
    unfold ddGet
    rw [Dict.get?_of_mem h.keys hkl]
    exact hq
  · intro hp
    unfold ddGet at hp
    cases hg : Dict.get? b.parents c with
    | none => rw [hg] at hp; simp at hp
    | some l =>
      rw [hg] at hp
      exact ⟨(c, l), Dict.mem_of_get? hg, p, hp, rfl⟩

theorem fromDict_toDict {b : Bbn} (h : BbnInv b) (hp : ParInv b.parents) (json : Bool) :
    Bbn.fromDict (if json then b.toDict.json else b.toDict) = .ok (Bbn.run b.reload) := by
  have hnodes := Bbn.toDict_nodes h json
  have hedges : (if json then b.toDict.json else b.toDict).edges = b.toDict.edges := by cases json <;> rfl
  unfold Bbn.fromDict
  rw [hnodes, hedges, List.map_map]
  have e1 : ((fun kv : PyKey × NodeDict => (kv.1, kv.2.toNode)) ∘ fun kv : Int × BbnNode => (keyOf json kv.1, kv.2.toDict)) =
      fun kv => (keyOf json kv.1, kv.2) := by
    funext kv; rfl
  rw [e1, Dict.ofList_nodup (keyOf_nodup h.ginv.nodup (fun _ n => n))]
  simp only
  rw [foldlM_ok _ (fun b' (e : EdgeDict) => b'.addEdge ⟨b.nodeOf e.pa, b.nodeOf e.ch, .directed⟩)]
  · congr 1
    unfold Bbn.run Bbn.reload
    rw [List.foldl_append, List.foldl_map, List.foldl_map]
    show List.foldl _ _ _ = _
    congr 1
    unfold Graph.getNodes Dict.values
    rw [List.foldl_map, List.foldl_map]
    rfl
  · intro e he b'
    obtain ⟨p, c⟩ := e
    have hpc := (mem_toDict_edges hp p c).1 he
    obtain ⟨n, hn, _⟩ := parent_node h hpc
    have hc : c ∈ Dict.keys b.nodes := (h.ginv.emNodes p c ((h.par p c).1 hpc)).2
    obtain ⟨m, hm⟩ := Dict.exists_get?_of_mem_keys hc
    simp only [bind, Except.bind]
    rw [lookupNode_keyOf json (fun _ n => n) b.nodes hn, lookupNode_keyOf json (fun _ n => n) b.nodes hm]
    simp only [Bbn.nodeOf, hn, hm]
    rfl

theorem reload_nodes {b : Bbn} (h : BbnInv b) (hp : ParInv b.parents) : (Bbn.run b.reload).nodes = b.nodes := by
  unfold Bbn.run Bbn.reload
  rw [List.foldl_append]
  have h1 : ((b.toGraph.getNodes.map BOp.addNode).foldl BOp.step Bbn.empty).nodes = b.nodes := by
    have key : ∀ (l : Dict Int BbnNode) (b' : Bbn), (Dict.keys (b'.nodes ++ l)).Nodup → (∀ k n, (k, n) ∈ l → n.var.id = k) →
        (((Dict.values l).map BOp.addNode).foldl BOp.step b').nodes = b'.nodes ++ l := by
      intro l
      induction l with
      | nil => intro b' _ _; simp [Dict.values]
      | cons kn l ih =>
        intro b' hk hid
        obtain ⟨k, n⟩ := kn
        have hkn := hid k n List.mem_cons_self
        have hnot : k ∉ Dict.keys b'.nodes := by
          unfold Dict.keys at hk ⊢
          rw [List.map_append, List.map_cons, List.nodup_append] at hk
          exact fun hm => hk.2.2 k hm k List.mem_cons_self rfl
        have hstep : (BOp.step b' (.addNode n)).nodes = b'.nodes ++ [(k, n)] := by
          show Dict.setDefault b'.nodes n.var.id n = _
          rw [hkn, Dict.setDefault_of_not_mem hnot]
        show ((BOp.addNode n :: (Dict.values l).map BOp.addNode).foldl BOp.step b').nodes = _
        rw [List.foldl_cons, ih _ (by rw [hstep]; simpa [Dict.keys] using hk) (fun k n hkn => hid k n (List.mem_cons_of_mem _ hkn)),
          hstep]
        simp
    have := key b.nodes Bbn.empty (by simpa [Bbn.empty] using h.ginv.nodup)
      (fun k n hkn => h.ginv.key k n (Dict.get?_of_mem h.ginv.nodup hkn))
    simpa [Bbn.empty, Graph.getNodes] using this
  have h2 : ∀ (l : List EdgeDict) (b' : Bbn), b'.nodes = b.nodes → (∀ e ∈ l, e ∈ b.toDict.edges) →
      ((l.map (fun e => BOp.addEdge (b.nodeOf e.pa) (b.nodeOf e.ch))).foldl BOp.step b').nodes = b.nodes := by
    intro l
    induction l with
    | nil => intro b' e _; exact e
    | cons e l ih =>
      intro b' hb' hl
      rw [List.map_cons, List.foldl_cons]
      apply ih
      · obtain ⟨p, c⟩ := e
        have hpc := (mem_toDict_edges hp p c).1 (hl _ List.mem_cons_self)
        have hmem := h.ginv.emNodes p c ((h.par p c).1 hpc)
        have hid : ∀ i, i ∈ Dict.keys b.nodes → (b.nodeOf i).var.id = i := by
          intro i hi
          obtain ⟨n, hn⟩ := Dict.exists_get?_of_mem_keys hi
          unfold Bbn.nodeOf
          rw [hn]
          exact h.ginv.key i n hn
        show Dict.setDefault (Dict.setDefault b'.nodes (b.nodeOf p).var.id (b.nodeOf p)) (b.nodeOf c).var.id (b.nodeOf c) = _
        rw [hid p hmem.1, hid c hmem.2, hb', Dict.setDefault_of_mem hmem.1, Dict.setDefault_of_mem hmem.2]
      · intro f hf; exact hl f (List.mem_cons_of_mem _ hf)
  exact h2 _ _ h1 (fun e he => he)

theorem reload_parents {b : Bbn} (h : BbnInv b) (hp : ParInv b.parents) : (Bbn.run b.reload).parents = b.parents := by
  unfold Bbn.run Bbn.reload
  rw [List.foldl_append]
  have h1 : ∀ (l : List BbnNode) (b' : Bbn), ((l.map BOp.addNode).foldl BOp.step b').parents = b'.parents := by
    intro l
    induction l with
    | nil => intro b'; rfl
    | cons n l ih => intro b'; rw [List.map_cons, List.foldl_cons, ih]; rfl
  have h2 : ∀ (l : List (Edge BbnNode)) (b' : Bbn),
      ((l.map (fun e => BOp.addEdge e.i e.j)).foldl BOp.step b').parents =
        l.foldl (fun P e => Bbn.edgeAdded P ⟨e.i, e.j, .directed⟩) b'.parents := by
    intro l
    induction l with
    | nil => intro b'; rfl
    | cons e l ih => intro b'; rw [List.map_cons, List.foldl_cons, ih, List.foldl_cons]; rfl
  have h3 : b.toDict.edges.map (fun e => BOp.addEdge (b.nodeOf e.pa) (b.nodeOf e.ch)) =
      (b.toDict.edges.map (fun e => (⟨b.nodeOf e.pa, b.nodeOf e.ch, .directed⟩ : Edge BbnNode))).map
        (fun e => BOp.addEdge e.i e.j) := by
    rw [List.map_map]; rfl
  rw [h3, h2, h1]
  have h4 := foldl_edgeAdded_all b.parents []
    (b.toDict.edges.map (fun e => (⟨b.nodeOf e.pa, b.nodeOf e.ch, .directed⟩ : Edge BbnNode)))
    (by simpa using hp.keys) hp.vals (by
      rw [List.map_map]
      have hid : ∀ e ∈ b.toDict.edges, ((fun e : Edge BbnNode => (nid e.i, nid e.j)) ∘
          fun e : EdgeDict => (⟨b.nodeOf e.pa, b.nodeOf e.ch, .directed⟩ : Edge BbnNode)) e = (e.pa, e.ch) := by
        rintro ⟨p, c⟩ he
        have hpc := (mem_toDict_edges hp p c).1 he
        have hmem := h.ginv.emNodes p c ((h.par p c).1 hpc)
        have hid : ∀ i, i ∈ Dict.keys b.nodes → (b.nodeOf i).var.id = i := by
          intro i hi
          obtain ⟨n, hn⟩ := Dict.exists_get?_of_mem_keys hi
          unfold Bbn.nodeOf
          rw [hn]
          exact h.ginv.key i n hn
        show ((b.nodeOf p).var.id, (b.nodeOf c).var.id) = (p, c)
        rw [hid p hmem.1, hid c hmem.2]
      rw [List.map_congr_left hid]
      show List.map _ (b.parents.flatMap _) = _
      rw [List.map_flatMap]
      congr 1
      funext kv
      rw [List.map_map]
      rfl)
  have e0 : Bbn.empty.parents = [] := rfl
  rw [e0, List.foldl_map]
  rw [List.foldl_map] at h4
  exact h4

end PyBBN
