import Verif.Proofs.Do
import Verif.Spec.Factory
import Mathlib.Order.WellFounded
import Mathlib.Data.Fintype.Order

/-! `networkx.topological_sort`: lists every node once, or raises, depending on whether there is a cycle. -/

namespace PyBBN
namespace Factory
open Relation

variable {g : DiG Str}

/-- the edges into `v` that are not in `P` -/
def rem (g : DiG Str) (P : List (Str × Str)) (v : Str) : Nat := (g.edges.filter (fun e => decide (e.2 = v ∧ e ∉ P))).length

theorem rem_nil (g : DiG Str) (v : Str) : rem g [] v = inDegree g v := by
  unfold rem inDegree
  congr 2
  funext e
  simp

theorem filter_length_erase {α : Type} [DecidableEq α] {l : List α} (hn : l.Nodup) {a : α} (ha : a ∈ l) (p : α → Bool) (hp : p a = true) :
    (l.filter p).length = (l.filter (fun x => p x && decide (x ≠ a))).length + 1 := by
  induction l with
  | nil => simp at ha
  | cons b l ih =>
    rw [List.nodup_cons] at hn
    by_cases hb : b = a
    · subst hb
      have : l.filter (fun x => p x && decide (x ≠ b)) = l.filter p := by
        refine List.filter_congr ?_
        intro x hx
        have : x ≠ b := fun e => hn.1 (e ▸ hx)
        simp [this]
      rw [List.filter_cons, if_pos hp, List.length_cons, List.filter_cons, if_neg (by simp), this]
    · have ha' : a ∈ l := by
        rcases List.mem_cons.1 ha with h | h
        · exact absurd h.symm hb
        · exact h
      have := ih hn.2 ha'
      rw [List.filter_cons, List.filter_cons]
      by_cases hpb : p b = true
      · rw [if_pos hpb, if_pos (by simp [hpb, hb]), List.length_cons, List.length_cons, this]
      · rw [if_neg hpb, if_neg (by simp [hpb]), this]

theorem rem_append_self (hn : g.edges.Nodup) {P : List (Str × Str)} {u v : Str} (he : (u, v) ∈ g.edges) (hP : (u, v) ∉ P) :
    rem g P v = rem g (P ++ [(u, v)]) v + 1 := by
  unfold rem
  rw [filter_length_erase hn he (fun e => decide (e.2 = v ∧ e ∉ P)) (by simp [hP])]
  congr 3
  funext e
  rw [Bool.eq_iff_iff]
  simp only [Bool.and_eq_true, decide_eq_true_eq, List.mem_append, List.mem_singleton, not_or]
  tauto

theorem rem_append_ne {P : List (Str × Str)} {u v w : Str} (hw : w ≠ v) : rem g (P ++ [(u, v)]) w = rem g P w := by
  unfold rem
  congr 2
  funext e
  rw [decide_eq_decide]
  simp only [List.mem_append, List.mem_singleton, not_or]
  constructor
  · rintro ⟨h1, h2, _⟩; exact ⟨h1, h2⟩
  · rintro ⟨h1, h2⟩
    refine ⟨h1, h2, ?_⟩
    rintro rfl
    exact hw h1.symm

/-- `I` counts the edges not in `P`, and `Z` lists the nodes without any -/
structure KInv (g : DiG Str) (P : List (Str × Str)) (I : Dict Str Nat) (Z : List Str) : Prop where
  keys : (Dict.keys I).Nodup
  mem : ∀ v, v ∈ Dict.keys I ↔ v ∈ g.nodes ∧ 0 < rem g P v
  val : ∀ v d, Dict.get? I v = some d → d = rem g P v
  nodup : Z.Nodup
  zero : ∀ v, v ∈ Z ↔ v ∈ g.nodes ∧ rem g P v = 0

theorem keys_pop (d : Dict Str Nat) (k v : Str) : v ∈ Dict.keys (Dict.pop d k) ↔ v ∈ Dict.keys d ∧ v ≠ k := by
  unfold Dict.pop Dict.keys
  simp only [List.mem_map, List.mem_filter, decide_eq_true_eq]
  constructor
  · rintro ⟨x, ⟨h1, h2⟩, rfl⟩; exact ⟨⟨x, h1, rfl⟩, h2⟩
  · rintro ⟨⟨x, h1, rfl⟩, h2⟩; exact ⟨x, ⟨h1, h2⟩, rfl⟩

theorem get?_pop_ne (d : Dict Str Nat) {k v : Str} (h : v ≠ k) : Dict.get? (Dict.pop d k) v = Dict.get? d v := by
  induction d with
  | nil => rfl
  | cons x d ih =>
    unfold Dict.pop at ih ⊢
    rw [List.filter_cons]
    by_cases hx : x.1 = k
    · rw [if_neg (by simp [hx]), ih, Dict.get?, if_neg (by rw [hx]; exact fun e => h e.symm)]
    · rw [if_pos (by simp [hx]), Dict.get?, Dict.get?, ih]

theorem kahnChild_ok (hn : g.edges.Nodup) (hwf : g.WF) {P : List (Str × Str)} {I : Dict Str Nat} {Z next : List Str} {u v : Str}
    (h : KInv g P I (Z ++ next)) (he : (u, v) ∈ g.edges) (hP : (u, v) ∉ P) :
    ∃ s, kahnChild (I, next) v = .ok s ∧ KInv g (P ++ [(u, v)]) s.1 (Z ++ s.2) := by
  have hr := rem_append_self hn he hP
  have hv : v ∈ g.nodes := (hwf (u, v) he).2
  have hk : v ∈ Dict.keys I := (h.mem v).2 ⟨hv, by omega⟩
  unfold kahnChild
  cases hg : Dict.get? I v with
  | none => exact absurd hk ((Dict.get?_eq_none_iff _ _).1 hg)
  | some d =>
    have hd := h.val v d hg
    simp only
    by_cases h1 : d - 1 = 0
    · rw [if_pos h1]
      refine ⟨_, rfl, ?_⟩
      have h0 : rem g (P ++ [(u, v)]) v = 0 := by omega
      have hvZ : v ∉ Z ++ next := by
        intro hm
        have := ((h.zero v).1 hm).2
        omega
      refine ⟨?_, ?_, ?_, ?_, ?_⟩
      · exact h.keys.sublist (List.filter_sublist.map _)
      · intro w
        rw [keys_pop, h.mem]
        by_cases hw : w = v
        · subst hw; simp [h0]
        · rw [rem_append_ne hw]; simp [hw]
      · intro w e hw
        have hne : w ≠ v := by
          rintro rfl
          exact ((keys_pop I w w).1 (Dict.mem_keys_of_get? hw)).2 rfl
        rw [get?_pop_ne I hne] at hw
        rw [rem_append_ne hne]
        exact h.val w e hw
      · rw [← List.append_assoc, List.nodup_append]
        refine ⟨h.nodup, by simp, ?_⟩
        intro a ha b hb
        rw [List.mem_singleton] at hb
        subst hb
        rintro rfl
        exact hvZ ha
      · intro w
        rw [← List.append_assoc, List.mem_append, List.mem_singleton, h.zero]
        by_cases hw : w = v
        · subst hw; simp [h0, hv]
        · rw [rem_append_ne hw]; simp [hw]
    · rw [if_neg h1]
      refine ⟨_, rfl, ?_⟩
      refine ⟨Dict.nodup_keys_set h.keys v (d - 1), ?_, ?_, h.nodup, ?_⟩
      · intro w
        rw [Dict.mem_keys_set, h.mem]
        by_cases hw : w = v
        · subst hw
          simp only [true_or, true_iff]
          exact ⟨hv, by omega⟩
        · rw [rem_append_ne hw]; simp [hw]
      · intro w e hw
        by_cases hne : w = v
        · subst hne
          rw [Dict.get?_set_self] at hw
          rw [Option.some.injEq] at hw
          omega
        · rw [Dict.get?_set_ne I (d - 1) (fun e => hne e.symm)] at hw
          rw [rem_append_ne hne]
          exact h.val w e hw
      · intro w
        rw [h.zero]
        by_cases hw : w = v
        · subst hw
          constructor
          · rintro ⟨_, h2⟩; omega
          · rintro ⟨_, h2⟩; omega
        · rw [rem_append_ne hw]

theorem kahnChildren_ok (hn : g.edges.Nodup) (hwf : g.WF) {Z : List Str} {u : Str} : ∀ (l : List Str) (P : List (Str × Str)) (I : Dict Str Nat)
    (next : List Str), KInv g P I (Z ++ next) → (∀ v ∈ l, (u, v) ∈ g.edges) → l.Nodup → (∀ v ∈ l, (u, v) ∉ P) →
    ∃ s, l.foldlM kahnChild (I, next) = .ok s ∧ KInv g (P ++ l.map (fun v => (u, v))) s.1 (Z ++ s.2)
  | [], P, I, next, h, _, _, _ => ⟨(I, next), rfl, by simpa using h⟩
  | v :: l, P, I, next, h, he, hl, hP => by
      rw [List.nodup_cons] at hl
      obtain ⟨s, h1, h2⟩ := kahnChild_ok hn hwf h (he v List.mem_cons_self) (hP v List.mem_cons_self)
      obtain ⟨t, h3, h4⟩ := kahnChildren_ok hn hwf l _ s.1 s.2 h2 (fun w hw => he w (List.mem_cons_of_mem _ hw)) hl.2 (by
        intro w hw hm
        rw [List.mem_append, List.mem_singleton, Prod.mk.injEq] at hm
        rcases hm with hm | hm
        · exact hP w (List.mem_cons_of_mem _ hw) hm
        · exact hl.1 (hm.2 ▸ hw))
      refine ⟨t, ?_, ?_⟩
      · rw [List.foldlM_cons, h1]; exact h3
      · rw [List.append_assoc] at h4; exact h4

/-- the edges out of a node -/
def outEdges (g : DiG Str) (u : Str) : List (Str × Str) := (Do.successors g u).map (fun v => (u, v))

theorem successors_nodup (hn : g.edges.Nodup) (u : Str) : (Do.successors g u).Nodup := by
  unfold Do.successors
  refine List.Nodup.map_on ?_ (hn.filter _)
  intro a ha b hb e
  rw [List.mem_filter, decide_eq_true_eq] at ha hb
  exact Prod.ext (ha.2.trans hb.2.symm) e

theorem mem_outEdges (u : Str) (e : Str × Str) : e ∈ outEdges g u ↔ e ∈ g.edges ∧ e.1 = u := by
  unfold outEdges
  rw [List.mem_map]
  constructor
  · rintro ⟨v, hv, rfl⟩
    exact ⟨(Do.mem_successors u v).1 hv, rfl⟩
  · rintro ⟨h1, rfl⟩
    exact ⟨e.2, (Do.mem_successors _ _).2 h1, rfl⟩

theorem kahnGen_ok (hn : g.edges.Nodup) (hwf : g.WF) {Z : List Str} : ∀ (l : List Str) (P : List (Str × Str)) (I : Dict Str Nat)
    (next : List Str), KInv g P I (Z ++ next) → l.Nodup → (∀ u ∈ l, ∀ e ∈ P, e.1 ≠ u) →
    ∃ s, l.foldlM (kahnNode g) (I, next) = .ok s ∧ KInv g (P ++ l.flatMap (outEdges g)) s.1 (Z ++ s.2)
  | [], P, I, next, h, _, _ => ⟨(I, next), rfl, by simpa using h⟩
  | u :: l, P, I, next, h, hl, hP => by
      rw [List.nodup_cons] at hl
      obtain ⟨s, h1, h2⟩ := kahnChildren_ok hn hwf (u := u) (Do.successors g u) P I next h (fun v hv => (Do.mem_successors u v).1 hv)
        (successors_nodup hn u) (fun v _ hm => hP u List.mem_cons_self _ hm rfl)
      obtain ⟨t, h3, h4⟩ := kahnGen_ok hn hwf l _ s.1 s.2 h2 hl.2 (by
        intro w hw e he
        rcases List.mem_append.1 he with he | he
        · exact hP w (List.mem_cons_of_mem _ hw) e he
        · obtain ⟨v, _, rfl⟩ := List.mem_map.1 he
          rintro rfl
          exact hl.1 hw)
      refine ⟨t, ?_, ?_⟩
      · rw [List.foldlM_cons]
        unfold kahnNode at h3 ⊢
        rw [h1]; exact h3
      · rw [List.append_assoc] at h4
        exact h4

/-- a finite set of nodes in which every node has a predecessor contains a cycle -/
theorem exists_cycle {R : Str → Str → Prop} {S : List Str} (hne : S ≠ []) (hp : ∀ v ∈ S, ∃ u ∈ S, R u v) : ∃ v, TransGen R v v := by
  by_contra hno
  push Not at hno
  let T := {v : Str // v ∈ S}
  have : Finite T := List.finite_toSet S
  let r : T → T → Prop := fun a b => TransGen R a.1 b.1
  have : IsTrans T r := ⟨fun a b c h1 h2 => h1.trans h2⟩
  have : Std.Irrefl r := ⟨fun a h => hno a.1 h⟩
  have hw : WellFounded r := Finite.wellFounded_of_trans_of_irrefl r
  obtain ⟨x, hx⟩ := List.exists_mem_of_ne_nil _ hne
  obtain ⟨m, _, hm⟩ := hw.has_min Set.univ ⟨⟨x, hx⟩, trivial⟩
  obtain ⟨u, hu, hr⟩ := hp m.1 m.2
  exact hm ⟨u, hu⟩ trivial (TransGen.single hr)

/-- what the loop returns: all remaining nodes, or the exception -/
theorem kahnLoop_spec (hn : g.edges.Nodup) (hnd : g.nodes.Nodup) (hwf : g.WF) : ∀ (fuel : Nat) (out gen : List Str) (I : Dict Str Nat),
    KInv g (out.flatMap (outEdges g)) I (out ++ gen) → g.nodes.length < fuel + out.length → (∀ v ∈ out, ¬ TransGen g.E v v) →
    (g.Acyclic → ∃ rest, kahnLoop g fuel I gen = .ok rest ∧ (out ++ rest).Perm g.nodes) ∧
    (¬ g.Acyclic → kahnLoop g fuel I gen = .error .exception)
  | 0, out, gen, I, h, hf, _ => by
      have h1 : out.length ≤ g.nodes.length :=
        (h.nodup.sublist (List.sublist_append_left _ _)).subperm (fun v hv => ((h.zero v).1 (List.mem_append_left _ hv)).1) |>.length_le
      omega
  | fuel + 1, out, gen, I, h, hf, hc => by
      have hpred : ∀ u v, (u, v) ∈ g.edges → v ∈ out ++ gen → u ∈ out := by
        intro u v he hv
        have h0 := ((h.zero v).1 hv).2
        unfold rem at h0
        rw [List.length_eq_zero_iff, List.filter_eq_nil_iff] at h0
        have := h0 (u, v) he
        simp only [decide_eq_true_eq, true_and, not_not] at this
        obtain ⟨w, hw, he'⟩ := List.mem_flatMap.1 this
        have := ((mem_outEdges w (u, v)).1 he').2
        rw [show u = w from this]
        exact hw
      have hcyc : ∀ v ∈ out ++ gen, ¬ TransGen g.E v v := by
        intro v hv ht
        obtain ⟨u, hvu, huv⟩ := TransGen.tail'_iff.1 ht
        have hu := hpred u v huv hv
        refine hc u hu ?_
        exact TransGen.head' huv hvu
      cases gen with
      | nil =>
        rw [List.append_nil] at h hcyc hpred
        unfold kahnLoop
        simp only
        by_cases hI : I.length = 0
        · rw [if_pos hI]
          have hall : ∀ v, v ∈ g.nodes → v ∈ out := by
            intro v hv
            by_contra hvo
            have hpos : 0 < rem g (out.flatMap (outEdges g)) v := by
              rcases Nat.eq_zero_or_pos (rem g (out.flatMap (outEdges g)) v) with h0 | h0
              · exact absurd ((h.zero v).2 ⟨hv, h0⟩) hvo
              · exact h0
            have := (h.mem v).2 ⟨hv, hpos⟩
            rw [List.length_eq_zero_iff] at hI
            rw [hI] at this
            simp [Dict.keys] at this
          refine ⟨fun _ => ⟨[], rfl, ?_⟩, fun hna => absurd ?_ hna⟩
          · rw [List.append_nil]
            exact (List.perm_ext_iff_of_nodup h.nodup hnd).2 (fun v => ⟨fun hv => ((h.zero v).1 hv).1, hall v⟩)
          · intro v ht
            obtain ⟨u, _, huv⟩ := TransGen.tail'_iff.1 ht
            exact hcyc v (hall v (hwf (u, v) huv).2) ht
        · rw [if_neg hI]
          refine ⟨fun hac => ?_, fun _ => rfl⟩
          exfalso
          have hS : (g.nodes.filter (fun v => decide (v ∉ out))) ≠ [] := by
            intro e
            cases I with
            | nil => simp at hI
            | cons x I =>
              have hx := (h.mem x.1).1 (by simp [Dict.keys])
              rw [List.filter_eq_nil_iff] at e
              have := e x.1 hx.1
              simp only [decide_eq_true_eq, not_not] at this
              have := ((h.zero x.1).1 this).2
              omega
          obtain ⟨v, hv⟩ := exists_cycle (R := g.E) hS (by
            intro v hv
            rw [List.mem_filter, decide_eq_true_eq] at hv
            obtain ⟨hv1, hv2⟩ := hv
            have hpos : 0 < rem g (out.flatMap (outEdges g)) v := by
              rcases Nat.eq_zero_or_pos (rem g (out.flatMap (outEdges g)) v) with h0 | h0
              · exact absurd ((h.zero v).2 ⟨hv1, h0⟩) hv2
              · exact h0
            unfold rem at hpos
            obtain ⟨e, he⟩ := List.exists_mem_of_length_pos hpos
            rw [List.mem_filter, decide_eq_true_eq] at he
            obtain ⟨he1, he2, he3⟩ := he
            refine ⟨e.1, ?_, ?_⟩
            · rw [List.mem_filter, decide_eq_true_eq]
              refine ⟨(hwf e he1).1, ?_⟩
              intro ho
              exact he3 (List.mem_flatMap.2 ⟨e.1, ho, (mem_outEdges _ _).2 ⟨he1, rfl⟩⟩)
            · unfold DiG.E; rw [← he2]; exact he1)
          exact hac v hv
      | cons x gen =>
        have hnodup := List.nodup_append.1 h.nodup
        obtain ⟨s, h1, h2⟩ := kahnGen_ok hn hwf (Z := out ++ (x :: gen)) (x :: gen) _ I [] (by rw [List.append_nil]; exact h) hnodup.2.1 (by
          intro u hu e he
          obtain ⟨w, hw, he⟩ := List.mem_flatMap.1 he
          have := ((mem_outEdges w e).1 he).2
          rw [this]
          exact hnodup.2.2 w hw u hu)
        have h2' : KInv g ((out ++ (x :: gen)).flatMap (outEdges g)) s.1 ((out ++ (x :: gen)) ++ s.2) := by
          rw [List.flatMap_append]; exact h2
        have := kahnLoop_spec hn hnd hwf fuel (out ++ (x :: gen)) s.2 s.1 h2' (by simp; omega) hcyc
        unfold kahnLoop
        simp only
        rw [h1]
        simp only [bind, Except.bind]
        constructor
        · intro hac
          obtain ⟨rest, hr, hp⟩ := this.1 hac
          rw [hr]
          refine ⟨_, rfl, ?_⟩
          rw [List.append_assoc] at hp
          exact hp
        · intro hna
          rw [this.2 hna]

/-- `topological_sort` lists all nodes of a graph without cycle, and raises for a graph with a cycle -/
theorem topologicalSort_spec (hn : g.edges.Nodup) (hnd : g.nodes.Nodup) (hwf : g.WF) :
    (g.Acyclic → ∃ l, topologicalSort g = .ok l ∧ l.Perm g.nodes) ∧ (¬ g.Acyclic → topologicalSort g = .error .exception) := by
  unfold topologicalSort
  have h : KInv g (([] : List Str).flatMap (outEdges g)) ((g.nodes.filter (fun v => decide (0 < inDegree g v))).map (fun v => (v, inDegree g v)))
      ([] ++ g.nodes.filter (fun v => decide (inDegree g v = 0))) := by
    have hkeys : Dict.keys ((g.nodes.filter (fun v => decide (0 < inDegree g v))).map (fun v => (v, inDegree g v))) =
        g.nodes.filter (fun v => decide (0 < inDegree g v)) := by
      unfold Dict.keys; rw [List.map_map]; exact List.map_id _
    refine ⟨?_, ?_, ?_, ?_, ?_⟩
    · rw [hkeys]; exact hnd.filter _
    · intro v
      rw [hkeys, List.mem_filter, decide_eq_true_eq, List.flatMap_nil, rem_nil]
    · intro v d hd
      have := Dict.mem_of_get? hd
      obtain ⟨w, _, e⟩ := List.mem_map.1 this
      rw [Prod.mk.injEq] at e
      rw [List.flatMap_nil, rem_nil, ← e.1, e.2]
    · rw [List.nil_append]; exact hnd.filter _
    · intro v
      rw [List.nil_append, List.mem_filter, decide_eq_true_eq, List.flatMap_nil, rem_nil]
  have := kahnLoop_spec hn hnd hwf (g.nodes.length + 1) [] _ _ h (by simp) (by simp)
  simpa using this

end Factory
end PyBBN
