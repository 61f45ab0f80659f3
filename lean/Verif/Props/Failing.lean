import Verif.Props.EvidenceOps
import Verif.Proofs.Failing

/-! # C27: exactly which updates fail, and what a failing update leaves behind -/

namespace PyBBN
open Relation InferenceController

theorem exists_split {l : List Str} {d : List Str} (h : ∃ k ∈ l, k ∉ d) : ∃ p u r, l = p ++ u :: r ∧ (∀ x ∈ p, x ∈ d) ∧ u ∉ d := by
  induction l with
  | nil => obtain ⟨k, hk, _⟩ := h; cases hk
  | cons a l ih =>
    by_cases ha : a ∈ d
    · obtain ⟨k, hk, hkd⟩ := h
      rcases List.mem_cons.1 hk with rfl | hk
      · exact absurd ha hkd
      · obtain ⟨p, u, r, h1, h2, h3⟩ := ih ⟨k, hk, hkd⟩
        refine ⟨a :: p, u, r, by rw [h1]; rfl, ?_, h3⟩
        intro x hx
        rcases List.mem_cons.1 hx with rfl | hx
        · exact ha
        · exact h2 x hx
    · exact ⟨[], a, l, rfl, by simp, ha⟩

/-- the first piece of evidence that mentions a string that is no value of its node -/
theorem exists_first_stray {es : List Evidence} (h : ∃ e ∈ es, e.Stray) :
    ∃ A e B, es = A ++ e :: B ∧ (∀ a ∈ A, ∀ k ∈ Dict.keys a.values, k ∈ a.node.values) ∧ e.Stray := by
  induction es with
  | nil => obtain ⟨e, he, _⟩ := h; cases he
  | cons a es ih =>
    by_cases ha : a.Stray
    · exact ⟨[], a, es, rfl, by simp, ha⟩
    · obtain ⟨e, he, hes⟩ := h
      rcases List.mem_cons.1 he with rfl | he
      · exact absurd hes ha
      · obtain ⟨A, e', B, h1, h2, h3⟩ := ih ⟨e, he, hes⟩
        refine ⟨a :: A, e', B, by rw [h1]; rfl, ?_, h3⟩
        intro x hx k hk
        rcases List.mem_cons.1 hx with rfl | hx
        · by_contra hc; exact ha ⟨k, hk, hc⟩
        · exact h2 x hx k hk

theorem changeType_known {ev : EvMap} : ∀ (es : List Evidence), (∀ e ∈ es, ∃ m, Dict.get? ev e.node.id = some m) →
    ∃ c, JoinTree.getChangeType ev es = .ok c := by
  intro es h
  have : ∃ cs, es.mapM (fun e => (do
      let stored ← Dict.getItem ev e.node.id
      .ok (Evidence.compare e.values stored) : Py ChangeType)) = .ok cs := by
    induction es with
    | nil => exact ⟨[], rfl⟩
    | cons e es ih =>
      obtain ⟨cs, h1⟩ := ih (fun e he => h e (List.mem_cons_of_mem _ he))
      obtain ⟨m, hm⟩ := h e List.mem_cons_self
      refine ⟨Evidence.compare e.values m :: cs, ?_⟩
      rw [List.mapM_cons, Dict.getItem_of_get? hm, h1]
      rfl
  obtain ⟨cs, h1⟩ := this
  unfold JoinTree.getChangeType
  rw [h1]
  simp only [bind, Except.bind]
  split
  · exact ⟨_, rfl⟩
  · split
    · exact ⟨_, rfl⟩
    · exact ⟨_, rfl⟩

section
variable {it : SetIter Int} {js : SetIter Str} {ops : List BOp} {jt : JoinTree}

/-- **C27**, the exact law of a failing update. On any network, connected or not, after any history of operations: let an update consist of
proper pieces of evidence `A`, then a piece `e` that mentions the values `p` of its node and then the string `u` that is no value of it,
then any further pieces `B` about nodes of the network. The update raises `KeyError`. Nothing of the join tree but the stored likelihoods
changes, so every report stays as it was. The pieces `A` are stored, of `e` the likelihoods of the values `p` only, of `B` nothing. -/
theorem c27_exact (hu : Net.Sane ops) (hj : apply it js (Bbn.run ops) = .ok jt) (h : List (SetIter Str × EvOp))
    (hn : ∀ op ∈ h, op.2.Nodes (Bbn.run ops).vars) (k : SetIter Str) (A : List Evidence) (e : Evidence) (B : List Evidence)
    (hA : ∀ a ∈ A, a.Proper (Bbn.run ops).vars) (he : e.node ∈ (Bbn.run ops).vars) (hk : (Dict.keys e.values).Nodup)
    (hB : ∀ b ∈ B, b.node ∈ (Bbn.run ops).vars ∧ (Dict.keys b.values).Nodup) {p r : List Str} {u : Str}
    (hs : Dict.keys e.values = p ++ u :: r) (hp : ∀ x ∈ p, x ∈ e.node.values) (hx : u ∉ e.node.values) :
    ((runHist jt h).updateEvidences k (A ++ e :: B)).2 = some .keyError ∧
    ((runHist jt h).updateEvidences k (A ++ e :: B)).1 =
      { runHist jt h with evidences := ((runHist jt h).updateEvidences k (A ++ e :: B)).1.evidences } ∧
    (∀ v : Variable, ((runHist jt h).updateEvidences k (A ++ e :: B)).1.getBbnPotential v = (runHist jt h).getBbnPotential v) ∧
    ∀ ℓ : Liks, (∀ v ∈ (Bbn.run ops).vars, stored (runHist jt h) v (ℓ v.id)) →
      ∀ v ∈ (Bbn.run ops).vars, stored ((runHist jt h).updateEvidences k (A ++ e :: B)).1 v
        (fun x => if v = e.node ∧ x ∈ p then e.written x else A.foldl (fun ℓ a => ℓ.put a.node a.canon) ℓ v.id x) := by
  have hd := doms hu
  obtain ⟨T, s0, _, _, _, h4, _⟩ := live_hist hu hj h hn
  generalize runHist jt h = t at *
  have hg := h4.good
  have hval1 : ∀ b : Evidence, b.node ∈ (Bbn.run ops).vars → (Dict.keys b.values).Nodup →
      b.validate = .ok b.validated ∧ b.validated.node = b.node := by
    intro b hb hbk
    obtain ⟨m, hm, _⟩ := validate_written b (hd.vals _ hb) (hd.ne _ hb) hbk
    have : b.validated = { b with values := m } := by unfold Evidence.validated; rw [hm]; rfl
    rw [this]
    exact ⟨hm, rfl⟩
  have hall : ∀ b ∈ A ++ e :: B, b.validate = .ok b.validated ∧ b.validated.node = b.node ∧ b.node ∈ (Bbn.run ops).vars := by
    intro b hb
    rcases List.mem_append.1 hb with hb | hb
    · exact ⟨(hval1 b (hA b hb).node (hA b hb).keys).1, (hval1 b (hA b hb).node (hA b hb).keys).2, (hA b hb).node⟩
    · rcases List.mem_cons.1 hb with rfl | hb
      · exact ⟨(hval1 _ he hk).1, (hval1 _ he hk).2, he⟩
      · exact ⟨(hval1 b (hB b hb).1 (hB b hb).2).1, (hval1 b (hB b hb).1 (hB b hb).2).2, (hB b hb).1⟩
  have hval : (A ++ e :: B).mapM Evidence.validate = .ok (A.map Evidence.validated ++ e.validated :: B.map Evidence.validated) := by
    rw [mapM_ok _ Evidence.validated _ (fun b hb => (hall b hb).1)]
    rw [List.map_append, List.map_cons]
  obtain ⟨c, hc⟩ := changeType_known (ev := t.evidences) (A.map Evidence.validated ++ e.validated :: B.map Evidence.validated) (by
    rw [← List.map_cons, ← List.map_append]
    intro b hb
    obtain ⟨b', hb', rfl⟩ := List.mem_map.1 hb
    rw [(hall b' hb').2.1]
    exact ⟨_, (hg.get hd (hall b' hb').2.2).1⟩)
  obtain ⟨w1, w2⟩ := write_stop hd hg A hA he hk hs hp hx (B.map Evidence.validated)
  have hupd : t.updateEvidences k (A ++ e :: B) =
      ({ t with evidences := (JoinTree.writeEvidences t.evidences (A.map Evidence.validated ++ e.validated :: B.map Evidence.validated)).1 },
        some .keyError) := by
    unfold JoinTree.updateEvidences
    rw [hval]
    simp only [hc, w1]
  rw [hupd]
  refine ⟨rfl, rfl, fun v => rfl, ?_⟩
  intro ℓ hℓ v hv
  unfold stored
  rw [show ({ t with evidences := (JoinTree.writeEvidences t.evidences
    (A.map Evidence.validated ++ e.validated :: B.map Evidence.validated)).1 } : JoinTree).evidences = (JoinTree.writeEvidences t.evidences
    (A.map Evidence.validated ++ e.validated :: B.map Evidence.validated)).1 from rfl, w2 v hv]
  congr 1
  apply List.map_congr_left
  intro x hx
  have hput : ∀ (A : List Evidence) (ℓ ℓ' : Liks) (i : Int) (x : Str), ℓ i x = ℓ' i x →
      A.foldl (fun (ℓ : Liks) (a : Evidence) => ℓ.put a.node a.canon) ℓ i x = A.foldl (fun (ℓ : Liks) (a : Evidence) => ℓ.put a.node a.canon) ℓ' i x := by
    intro A
    induction A with
    | nil => intro ℓ ℓ' i x h; exact h
    | cons a A ih =>
      intro ℓ ℓ' i x h
      rw [List.foldl_cons, List.foldl_cons]
      apply ih
      unfold Liks.put
      split
      · rfl
      · exact h
  rw [hput A (lik t.evidences) ℓ v.id x (by
    have h1 := (hg.get hd hv).1
    have h2 := hℓ v hv
    unfold stored at h2
    rw [h1] at h2
    have h3 := List.map_inj_left.1 (Option.some.inj h2) x hx
    exact (Prod.mk.inj h3).2)]

/-- **C27**, which updates fail. On any network, after any history of operations, an update (about node objects of the network or about
foreign ids) raises exactly when it mentions a node that is not in the network or a string that is no value of its node. -/
theorem c27_raises_iff (hu : Net.Sane ops) (hj : apply it js (Bbn.run ops) = .ok jt) (h : List (SetIter Str × EvOp))
    (hn : ∀ op ∈ h, op.2.Nodes (Bbn.run ops).vars) (k : SetIter Str) (es : List Evidence) (hes : (EvOp.update es).Nodes (Bbn.run ops).vars) :
    ((runHist jt h).updateEvidences k es).2 ≠ none ↔
      ∃ e ∈ es, e.node ∉ (Bbn.run ops).vars ∨ ∃ x ∈ Dict.keys e.values, x ∉ e.node.values := by
  have hd := doms hu
  have hN := Bbn.net_ok (bbn_run_inv ops) hu.wf
  have hne := (live_apply hu hj).choose_spec.2.2
  constructor
  · intro herr
    by_contra hc
    push Not at hc
    obtain ⟨T, s0, _, _, _, h4, _⟩ := live_hist hu hj h hn
    obtain ⟨jt', h1, _⟩ := h4.update hN hne hd.ne k es hes
    apply herr
    rw [h1]
    exact (evUpdate_proper hd h4.good es (fun e he => ⟨(hc e he).1, (hes e he).2, (hc e he).2⟩)).1
  · intro hex
    by_cases hall : ∀ e ∈ es, e.node ∈ (Bbn.run ops).vars
    · obtain ⟨e, he, h1 | h1⟩ := hex
      · exact absurd (hall e he) h1
      · obtain ⟨A, e', B, rfl, hA, he'⟩ := exists_first_stray ⟨e, he, h1⟩
        obtain ⟨p, u, r, hs, hp, hx⟩ := exists_split he'
        have hm : ∀ b, b ∈ A ++ e' :: B → b.node ∈ (Bbn.run ops).vars ∧ (Dict.keys b.values).Nodup := fun b hb => ⟨hall b hb, (hes b hb).2⟩
        have := (c27_exact hu hj h hn k A e' B
          (fun a ha => ⟨(hm a (List.mem_append_left _ ha)).1, (hm a (List.mem_append_left _ ha)).2, hA a ha⟩)
          (hm e' (by simp)).1 (hm e' (by simp)).2 (fun b hb => hm b (by simp [hb])) hs hp hx).1
        rw [this]
        simp
    · push Not at hall
      obtain ⟨e, he, hf⟩ := hall
      obtain ⟨T, s0, _, _, _, h4, _⟩ := live_hist hu hj h hn
      exact (update_foreign k he (h4.foreign _ (fun hi => hf ((hes e he).1.1 hi))) (fun e he => (hes e he).1.2)).2

end

/-- an observation, a piece of virtual evidence that mentions an unknown value between two known ones, another observation -/
def c27_update : List Evidence :=
  [obs (c16_node 4) "on".toList,
   Evidence.build (c16_node 0) .virtual [("on".toList, 1/2), ("oops".toList, 1), ("off".toList, 1/4)],
   obs (c16_node 1) "on".toList]

/-- C27 is not vacuous: this update raises `KeyError`; the observation of node 4 and the likelihood 1/2 of the first value of node 0 are
stored, the likelihood of its second value and the observation of node 1 are not; the report on node 0 stays the prior -/
example : ((apply .same .same (Bbn.run c16_ops)).val?.map (fun jt =>
      ((jt.updateEvidences .same c27_update).2, [4, 0, 1].map (likList (jt.updateEvidences .same c27_update).1)))) =
    some (some .keyError, [[1, 0], [1/2, 1], [1, 1]]) ∧
    ((apply .same .same (Bbn.run c16_ops)).val?.map (fun jt =>
      decide (((jt.updateEvidences .same c27_update).1.getBbnPotential (c16_node 0)).val? = (jt.getBbnPotential (c16_node 0)).val?))) =
    some true := ⟨by decide +kernel, by decide +kernel⟩

/-- the theorems at this update, after the history of C18 -/
example := c27_exact c16_usable.toSane (c16_jt_ok .same .rev) c18_hist c18_hist_nodes .same [obs (c16_node 4) "on".toList]
  (Evidence.build (c16_node 0) .virtual [("on".toList, 1/2), ("oops".toList, 1), ("off".toList, 1/4)]) [obs (c16_node 1) "on".toList]
  (p := ["on".toList]) (r := ["off".toList]) (u := "oops".toList)
  (by decide +kernel) (by decide +kernel) (by decide +kernel) (by decide +kernel) (by decide +kernel) (by decide +kernel) (by decide +kernel)

example : ((runHist (c16_jt .same .rev) c18_hist).updateEvidences .same c27_update).2 ≠ none := by
  rw [c27_raises_iff c16_usable.toSane (c16_jt_ok .same .rev) c18_hist c18_hist_nodes .same c27_update
    (by unfold EvOp.Nodes NodeOk; decide +kernel)]
  exact ⟨_, List.mem_cons_of_mem _ List.mem_cons_self, Or.inr ⟨"oops".toList, by decide +kernel, by decide +kernel⟩⟩

/-- a finding on a string that is no value counts against the values of the node: with likelihood `-1` for an unknown string the finding
that allows one value only is taken to allow nothing, and stands for no evidence -/
example : (Evidence.build (c16_node 0) .finding [("on".toList, 1), ("oops".toList, -1)]).written "off".toList = 1 := by decide +kernel

end PyBBN
