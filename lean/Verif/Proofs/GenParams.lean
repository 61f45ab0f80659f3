import Verif.Proofs.Generator
import Verif.Proofs.Build
import Verif.Props.Ace

/-! The generated parameters and the conversion to a network. -/

namespace PyBBN
open Relation DSep

namespace Gen
open Rnd

/-- the parameters of node `i` in a graph whose nodes have `card` values -/
structure Params.Fits (q : Params) (g : DiG Int) (card : Int → Nat) (i : Int) : Prop where
  parents : q.parents = predecessors g i
  rows : q.params.length = ((predecessors g i).map card).prod
  row : ∀ r ∈ q.params, r.length = card i ∧ (∀ x ∈ r, 0 < x) ∧ r.sum = 1
  shape1 : q.shape.1.val = ((predecessors g i).map card).prod
  shape2 : q.shape.2 = .np (card i)

/-- the parameters of all nodes -/
structure Fits (g : DiG Int) (ps : Dict Int Params) (card : Int → Nat) : Prop where
  keys : Dict.keys ps = g.nodes
  two : ∀ i ∈ g.nodes, 2 ≤ card i
  node : ∀ i ∈ g.nodes, ∃ q, Dict.get? ps i = some q ∧ q.Fits g card i

theorem numParentInst_ok {nv : List Num} {card : Int → Nat} : ∀ (ps : List Int) (acc : Num), (∀ i ∈ ps, npGet nv i = .ok (.np (card i))) →
    ∃ m, ps.foldlM (fun acc pa => (do
      let k ← npGet nv pa
      .ok (acc.mul k) : Py Num)) acc = .ok m ∧ m.val = acc.val * ((ps.map card).prod : Nat)
  | [], acc, _ => ⟨acc, rfl, by simp⟩
  | p :: ps, acc, h => by
      obtain ⟨m, h1, h2⟩ := numParentInst_ok ps (acc.mul (.np (card p))) (fun i hi => h i (List.mem_cons_of_mem _ hi))
      refine ⟨m, ?_, ?_⟩
      · rw [List.foldlM_cons, h p List.mem_cons_self]
        exact h1
      · rw [h2, List.map_cons, List.prod_cons]
        have : (acc.mul (.np (card p))).val = acc.val * card p := by cases acc <;> rfl
        rw [this]
        push_cast
        ring

theorem always_dirichlet (D : Dirichlet) {n maxAlpha : Int} (hn : 0 < n) (ha : 0 < maxAlpha) :
    (sampleDirichlet D n maxAlpha).Always (fun r => r.length = n.toNat ∧ (∀ x ∈ r, 0 < x) ∧ r.sum = 1) := by
  unfold sampleDirichlet alphas
  refine Always.bind (Always.times (always_randint (lo := 1) (hi := maxAlpha + 1) (by omega)) n.toNat) ?_
  intro as has
  intro ds
  refine ⟨fun e he => (by cases he), fun a rest h => ?_⟩
  cases h
  refine ⟨by rw [D.length_rvs, has.1], D.pos_rvs _ _, D.sum_rvs _ _ ?_⟩
  intro e
  rw [e] at has
  have := has.1
  simp at this
  omega

theorem always_params (D : Dirichlet) {g : DiG Int} {nv : List Num} {card : Int → Nat} {maxAlpha : Int} (ha : 0 < maxAlpha) (hwf : g.WF)
    (hc : ∀ i ∈ g.nodes, npGet nv i = .ok (.np (card i)) ∧ 2 ≤ card i) : ∀ (is : List Int) (ps : Dict Int Params), is.Nodup →
      (∀ i ∈ is, i ∈ g.nodes ∧ i ∉ Dict.keys ps) → (∀ i ∈ Dict.keys ps, ∃ q, Dict.get? ps i = some q ∧ q.Fits g card i) →
      (paramsLoop D g nv maxAlpha is ps).Always (fun ps' => Dict.keys ps' = Dict.keys ps ++ is ∧
        ∀ i ∈ Dict.keys ps', ∃ q, Dict.get? ps' i = some q ∧ q.Fits g card i)
  | [], ps, _, _, h => always_pure ⟨by simp, h⟩
  | i :: is, ps, hn, hi, h => by
      rw [List.nodup_cons] at hn
      obtain ⟨hin, hik⟩ := hi i List.mem_cons_self
      have hpa : ∀ p ∈ predecessors g i, npGet nv p = .ok (.np (card p)) := fun p hp => (hc p (hwf _ ((mem_predecessors g p i).1 hp)).1).1
      obtain ⟨m, hm1, hm2⟩ := numParentInst_ok (predecessors g i) (.py 1) hpa
      have hm2' : m.val = (((predecessors g i).map card).prod : Nat) := by rw [hm2]; simp [Num.val]
      have hm : numParentInst (predecessors g i) nv = .ok m := hm1
      unfold paramsLoop dirichletParameters
      simp only
      rw [hm, (hc i hin).1]
      refine Always.bind (P := fun rows => rows.length = ((predecessors g i).map card).prod ∧
        ∀ r ∈ rows, r.length = card i ∧ (∀ x ∈ r, 0 < x) ∧ r.sum = 1) ?_ ?_
      · refine Always.bind (always_lift rfl (P := fun a => a = m) rfl) ?_
        intro m' hm'
        rw [hm']
        refine Always.bind (always_lift rfl (P := fun a => a = Num.np (card i)) rfl) ?_
        rintro _ rfl
        refine (Always.times (always_dirichlet D (by have := (hc i hin).2; simp [Num.val]; omega) ha) _).mono ?_
        rintro rows ⟨h1, h2⟩
        refine ⟨by rw [h1, hm2', Int.toNat_natCast], fun r hr => ?_⟩
        have := h2 r hr
        simpa [Num.val] using this
      · rintro rows ⟨h1, h2⟩
        refine Always.bind (always_lift rfl (P := fun a => a = m) rfl) ?_
        intro m' hm'
        rw [hm']
        refine Always.bind (always_lift rfl (P := fun a => a = Num.np (card i)) rfl) ?_
        rintro _ rfl
        have hset : Dict.set ps i ⟨predecessors g i, rows, (m, .np (card i))⟩ = ps ++ [(i, ⟨predecessors g i, rows, (m, .np (card i))⟩)] :=
          Dict.set_of_not_mem hik _
        have hkeys : Dict.keys (Dict.set ps i ⟨predecessors g i, rows, (m, .np (card i))⟩) = Dict.keys ps ++ [i] := by
          rw [hset]; simp [Dict.keys]
        refine (always_params D ha hwf hc is _ hn.2 ?_ ?_).mono ?_
        · intro j hj
          rw [hkeys, List.mem_append, List.mem_singleton, not_or]
          refine ⟨(hi j (List.mem_cons_of_mem _ hj)).1, (hi j (List.mem_cons_of_mem _ hj)).2, ?_⟩
          rintro rfl
          exact hn.1 hj
        · intro j hj
          by_cases hji : j = i
          · subst hji
            exact ⟨_, Dict.get?_set_self .., ⟨rfl, h1, h2, hm2', rfl⟩⟩
          · rw [Dict.get?_set_ne _ _ (Ne.symm hji)]
            rw [hkeys, List.mem_append, List.mem_singleton] at hj
            exact h j (hj.resolve_right hji)
        · rintro ps' ⟨k1, k2⟩
          refine ⟨?_, k2⟩
          rw [k1, hkeys]; simp

theorem always_parameters (D : Dirichlet) {n : Int} {g : DiG Int} (hg : Inv n g) {maxValues maxAlpha : Int} (hv : 0 < maxValues)
    (ha : 0 < maxAlpha) : (generateParameters D g maxValues maxAlpha).Always (fun ps => ∃ card : Int → Nat, Fits g ps card ∧
      ∀ i ∈ g.nodes, (card i : Int) ≤ max maxValues 2) := by
  unfold generateParameters numValues
  refine Always.bind (Always.times (P := fun x => ∃ k : Nat, x = Num.np k ∧ 2 ≤ k ∧ (k : Int) ≤ max maxValues 2) ?_ _) ?_
  · refine Always.bind (always_randint hv) ?_
    intro r hr
    refine always_pure ⟨(max (r + 1) 2).toNat, ?_, ?_, ?_⟩
    · congr 1; omega
    · omega
    · omega
  · rintro nv ⟨h1, h2⟩
    have hlen : nv.length = g.nodes.length := by rw [h1]; simp
    let card : Int → Nat := fun i => ((nv[i.toNat]?).map (fun x => x.val.toNat)).getD 0
    have hc : ∀ i ∈ g.nodes, npGet nv i = .ok (.np (card i)) ∧ 2 ≤ card i ∧ (card i : Int) ≤ max maxValues 2 := by
      intro i hi
      have hi' := hi
      rw [hg.nodes, mem_range] at hi'
      have hlt : i.toNat < nv.length := by
        rw [hlen, hg.nodes, length_range]; omega
      obtain ⟨k, hk, hk2, hk3⟩ := h2 nv[i.toNat] (List.getElem_mem hlt)
      have hcard : card i = k := by
        simp only [card, List.getElem?_eq_getElem hlt, Option.map_some, Option.getD_some, hk, Num.val]
        simp
      refine ⟨?_, by rw [hcard]; exact hk2, by rw [hcard]; exact hk3⟩
      unfold npGet
      simp only
      rw [if_neg (by omega : ¬ i < 0), if_neg (by omega), List.getElem?_eq_getElem hlt]
      simp only
      rw [hk, hcard]
    refine (always_params D ha hg.wf (card := card) (fun i hi => ⟨(hc i hi).1, (hc i hi).2.1⟩) g.nodes [] ?_ ?_ ?_).mono ?_
    · rw [hg.nodes]; exact nodup_range n
    · intro i hi; exact ⟨hi, by simp [Dict.keys]⟩
    · intro i hi; simp [Dict.keys] at hi
    · rintro ps ⟨k1, k2⟩
      have hkeys : Dict.keys ps = g.nodes := by rw [k1]; simp [Dict.keys]
      exact ⟨card, ⟨hkeys, fun i hi => (hc i hi).2.1, fun i hi => k2 i (hkeys ▸ hi)⟩, fun i hi => (hc i hi).2.2⟩

end Gen
end PyBBN
