import Verif.Proofs.EvProgram

/-! # C102: evidence and builders stand for the calls made on them -/

namespace PyBBN
open InferenceController

section
variable {ops : List BOp} {jts : List JoinTree} {R : Nat → Prop}

theorem stores_hist (hu : Net.Sane ops) {it : SetIter Int} {js : SetIter Str} {jt : JoinTree} (hj : apply it js (Bbn.run ops) = .ok jt)
    {h : List (SetIter Str × EvOp)} (hp : ∀ op ∈ h, op.2.Proper (Bbn.run ops).vars) : Stores (Bbn.run ops).vars (runHist jt h).evidences := by
  obtain ⟨T, h1, _, _⟩ := live_law hu hj h hp
  intro v hv
  exact ⟨_, stored_get hu h1 v hv, keys_map _ _⟩

theorem program_run (hu : Net.Sane ops) (hj : ∀ jt ∈ jts, ∃ it js, apply it js (Bbn.run ops) = .ok jt) :
    ∀ (cs : List EvCmd) (w : EvWorld) (p : Plan) (H : Nat → List (SetIter Str × EvOp)), Inv jts R cs w p H →
      (∀ t, ∀ op ∈ H t, op.2.Proper (Bbn.run ops).vars) → GoodProgram (Bbn.run ops).vars R p cs →
      (∀ t, ∀ op ∈ H t ++ Plan.hist t p cs, op.2.Proper (Bbn.run ops).vars) ∧
      (∀ t : Nat, (w.run cs).trees[t]? = (jts[t]?).map (fun jt => runHist jt (H t ++ Plan.hist t p cs))) ∧
      ∀ (pre post : List EvCmd) (c : EvCmd), cs = pre ++ c :: post → ∀ (t : Nat) (jt : JoinTree) (x : SetIter Str × EvOp),
        (w.run pre).trees[t]? = some jt → (pre.foldl Plan.step p).op t c = some x → ((w.run pre).step c).2 = (x.2.run x.1 jt).2
  | [], w, p, H, hi, hp, _ => by
      refine ⟨by simpa [Plan.hist] using hp, fun t => ?_, fun pre post c h => absurd h (by simp)⟩
      simp only [Plan.hist, List.append_nil]
      exact hi.t t
  | c :: cs, w, p, H, hi, hp, hg => by
      have hst : ∀ (t : Nat) (jt : JoinTree), w.trees[t]? = some jt → Stores (Bbn.run ops).vars jt.evidences := by
        intro t jt h
        rw [hi.t t] at h
        obtain ⟨j0, h0, rfl⟩ := Option.map_eq_some_iff.1 h
        obtain ⟨it, js, ha⟩ := hj j0 (List.mem_of_getElem? h0)
        exact stores_hist hu ha (hp t)
      obtain ⟨a1, a2, a3⟩ := hi.step (doms hu) hst hg.1
      obtain ⟨b1, b2, b3⟩ := program_run hu hj cs _ _ _ a1 (by
        intro t op hop
        rcases List.mem_append.1 hop with h | h
        · exact hp t op h
        · cases hx : p.op t c with
          | none => rw [hx] at h; cases h
          | some x =>
            rw [hx, Option.toList_some, List.mem_singleton] at h
            subst h
            exact a3 t _ hx) hg.2
      refine ⟨?_, ?_, ?_⟩
      · intro t op hop
        refine b1 t op ?_
        rw [List.append_assoc]
        exact hop
      · intro t
        rw [show w.run (c :: cs) = (w.step c).1.run cs from rfl, b2 t, List.append_assoc]
        rfl
      · intro pre post c' he t jt x ht hx
        cases pre with
        | nil =>
          rw [List.nil_append, List.cons.injEq] at he
          obtain ⟨rfl, rfl⟩ := he
          exact a2 t jt x ht hx
        | cons c0 pre =>
          rw [List.cons_append, List.cons.injEq] at he
          obtain ⟨rfl, rfl⟩ := he
          exact b3 pre post c' rfl t jt x ht hx

/-- **C102**, partial. Any program that creates builders and pieces of evidence, changes them and hands them to join trees of one
network, in any order, the same piece to several trees or several times: the join trees are those that result when every call on a
tree is given what was asked of the piece of evidence by then (node, type and likelihoods of its builder at the time of `build`,
and later `add_value` calls), and every call on a tree raises what it would then raise.

Missing: values added to a piece of evidence that has been used and was not `Reusable` then, and observations that are not plain
handed to `set_observation`; the claim fails for both (`c102_false`, `c102_toggle_false`). -/
theorem c102_program_partial (hu : Net.Sane ops) (hj : ∀ jt ∈ jts, ∃ it js, apply it js (Bbn.run ops) = .ok jt) {cmds : List EvCmd}
    (hg : GoodProgram (Bbn.run ops).vars R {} cmds) :
    (∀ t : Nat, (EvWorld.run { trees := jts } cmds).trees[t]? = (jts[t]?).map (fun jt => runHist jt (Plan.hist t {} cmds))) ∧
    ∀ (pre post : List EvCmd) (c : EvCmd), cmds = pre ++ c :: post → ∀ (t : Nat) (jt : JoinTree) (x : SetIter Str × EvOp),
      (EvWorld.run { trees := jts } pre).trees[t]? = some jt → (pre.foldl Plan.step {}).op t c = some x →
      ((EvWorld.run { trees := jts } pre).step c).2 = (x.2.run x.1 jt).2 := by
  have hi : Inv jts R cmds { trees := jts } {} (fun _ => []) :=
    ⟨⟨rfl, fun i o a h => by simp at h⟩, ⟨rfl, fun i o a h => by simp at h⟩, fun t => by simp [runHist]⟩
  obtain ⟨_, h2, h3⟩ := program_run hu hj cmds _ _ _ hi (fun _ op h => absurd h List.not_mem_nil) hg
  exact ⟨fun t => by simpa using h2 t, h3⟩

/-- **C102** for the reports: with C18, the reports of a connected network are exact for the likelihoods asked for. -/
theorem c102_reports_partial (hu : Net.Usable ops) (hj : ∀ jt ∈ jts, ∃ it js, apply it js (Bbn.run ops) = .ok jt) {cmds : List EvCmd}
    (hg : GoodProgram (Bbn.run ops).vars R {} cmds) (t : Nat) (jt : JoinTree) (ht : (EvWorld.run { trees := jts } cmds).trees[t]? = some jt) :
    ∀ v ∈ (Bbn.run ops).vars,
      jt.getBbnPotential v = .ok (posteriorTable (Bbn.run ops) (lawHist (Bbn.run ops).vars (Plan.hist t {} cmds)).prop v) := by
  have hi : Inv jts R cmds { trees := jts } {} (fun _ => []) :=
    ⟨⟨rfl, fun i o a h => by simp at h⟩, ⟨rfl, fun i o a h => by simp at h⟩, fun t => by simp [runHist]⟩
  obtain ⟨h1, h2, _⟩ := program_run hu.toSane hj cmds _ _ _ hi (fun _ op h => absurd h List.not_mem_nil) hg
  rw [h2 t] at ht
  obtain ⟨j0, h0, rfl⟩ := Option.map_eq_some_iff.1 ht
  obtain ⟨it, js, ha⟩ := hj j0 (List.mem_of_getElem? h0)
  intro v hv
  have := c18_law hu ha ([] ++ Plan.hist t {} cmds) (h1 t) v hv
  exact this.2

end

/-- two trees of the example network -/
def c102_trees : List JoinTree := ((apply .same .same (Bbn.run c16_ops)).val?.toList) ++ (apply .rev .same (Bbn.run c16_ops)).val?.toList

theorem c102_trees_ok : ∀ jt ∈ c102_trees, ∃ it js, apply it js (Bbn.run c16_ops) = .ok jt := by
  intro jt h
  have key : ∀ (r : Py JoinTree), jt ∈ r.val?.toList → r = .ok jt := by
    intro r hr
    cases r with
    | error e => simp [Py.val?] at hr
    | ok a => simp [Py.val?] at hr; rw [hr]
  rcases List.mem_append.1 h with h | h
  · exact ⟨_, _, key _ h⟩
  · exact ⟨_, _, key _ h⟩

/-- a program: one builder, used twice with changes in between; the first piece is used on both trees, is then turned into
another observation with `add_value` and used again; the builder's later changes do not touch it -/
def c102_prog : List EvCmd :=
  [.newBuilder, .withNode 0 (some (c16_node 4)), .withEvidence 0 "on".toList 1, .build 0,
   .update .same 0 [0], .update .rev 1 [0],
   .withNode 0 (some (c16_node 1)), .withType 0 .virtual, .withEvidence 0 "on".toList (3/4), .withEvidence 0 "off".toList (5/4), .build 0,
   .update .same 0 [1, 0],
   .addValue 0 "on".toList 0, .addValue 0 "off".toList 1, .observe .same 0 0, .unobserve .same 1 [c16_node 4]]

theorem reusable_of_ones {e : Evidence} (ht : e.type = .observation) (a : Str) (ha : a ∈ e.node.values) (h1 : e.given a = 1)
    (h0 : ∀ kv ∈ e.values, kv.1 = a ∨ kv.2 = 0) : e.Reusable := by
  unfold Evidence.Reusable
  rw [ht]
  refine ⟨a, ha, h1, fun x hx => ?_⟩
  unfold Evidence.given
  cases hq : Dict.get? e.values x with
  | none => rfl
  | some q =>
    rcases h0 (x, q) (Dict.mem_of_get? hq) with h | h
    · exact absurd h hx
    · exact h

theorem c102_good : GoodProgram (Bbn.run c16_ops).vars (fun h => h = 0) {} c102_prog := by
  refine ⟨trivial, trivial, trivial, trivial, ?_, ?_, trivial, trivial, trivial, trivial, trivial, ?_, trivial, trivial, ?_, ?_, trivial⟩
  · intro h hh
    rw [List.mem_singleton] at hh
    subst hh
    exact ⟨Evidence.build (c16_node 4) .observation [("on".toList, 1)], rfl, by decide +kernel,
      fun _ => reusable_of_ones rfl "on".toList (by decide +kernel) (by decide +kernel) (by decide +kernel), fun h => absurd rfl h⟩
  · intro h hh
    rw [List.mem_singleton] at hh
    subst hh
    exact ⟨Evidence.build (c16_node 4) .observation [("on".toList, 1)], rfl, by decide +kernel,
      fun _ => reusable_of_ones rfl "on".toList (by decide +kernel) (by decide +kernel) (by decide +kernel), fun h => absurd rfl h⟩
  · intro h hh
    rw [List.mem_cons, List.mem_singleton] at hh
    rcases hh with rfl | rfl
    · refine ⟨Evidence.build (c16_node 1) .virtual [("on".toList, 1), ("on".toList, 3/4), ("off".toList, 5/4)], rfl, by decide +kernel,
        fun h => absurd h (by decide), fun _ c hc => ?_⟩
      simp only [List.mem_cons, List.not_mem_nil, or_false] at hc
      rcases hc with rfl | rfl | rfl | rfl
      · exact (by decide : (0 : Nat) ≠ 1)
      · exact (by decide : (0 : Nat) ≠ 1)
      · trivial
      · trivial
    · exact ⟨Evidence.build (c16_node 4) .observation [("on".toList, 1)], rfl, by decide +kernel,
        fun _ => reusable_of_ones rfl "on".toList (by decide +kernel) (by decide +kernel) (by decide +kernel), fun h => absurd rfl h⟩
  · exact ⟨Evidence.build (c16_node 4) .observation [("on".toList, 1), ("on".toList, 0), ("off".toList, 1)], rfl, by decide +kernel, rfl,
      reusable_of_ones rfl "off".toList (by decide +kernel) (by decide +kernel) (by decide +kernel), fun h => absurd rfl h⟩
  · exact (by decide +kernel : ∀ v ∈ [c16_node 4], v ∈ (Bbn.run c16_ops).vars)

/-- the hypotheses hold for the program and two trees, and the two trees end with different reports: the first has the observation
"off" and the virtual evidence, the second has no evidence -/
example : Net.Usable c16_ops ∧ (∀ jt ∈ c102_trees, ∃ it js, apply it js (Bbn.run c16_ops) = .ok jt) ∧
    GoodProgram (Bbn.run c16_ops).vars (fun h => h = 0) {} c102_prog ∧
    (EvWorld.run { trees := c102_trees } c102_prog).trees.map (fun jt => ((Dict.get? jt.evidences 4), (Dict.get? jt.evidences 1))) =
      [(some [("on".toList, 0), ("off".toList, 1)], some [("on".toList, 3/4), ("off".toList, 1)]),
       (some [("on".toList, 1), ("off".toList, 1)], some [("on".toList, 1), ("off".toList, 1)])] ∧
    ((EvWorld.run { trees := c102_trees } c102_prog).trees.map (fun jt => (jt.getBbnPotential (c16_node 0)).val?)).Nodup :=
  ⟨c16_usable, c102_trees_ok, c102_good, by decide +kernel, by decide +kernel⟩

/-- a program that goes on with a piece of evidence after its use: "on" with weight 3/5 against 2/5, and then "off" with weight 4/5 -/
def c102_bad : List EvCmd :=
  [.newEvidence (some (c16_node 0)) .observation, .addValue 0 "on".toList (3/5), .addValue 0 "off".toList (2/5), .update .same 0 [0],
   .addValue 0 "off".toList (4/5), .update .same 0 [0]]

theorem c102_bad_proper : ProperProgram (Bbn.run c16_ops).vars {} c102_bad := by
  refine ⟨trivial, trivial, trivial, ?_, trivial, ?_, trivial⟩
  · intro h hh
    rw [List.mem_singleton] at hh
    subst hh
    exact ⟨Evidence.build (c16_node 0) .observation [("on".toList, 3/5), ("off".toList, 2/5)], rfl, by decide +kernel⟩
  · intro h hh
    rw [List.mem_singleton] at hh
    subst hh
    exact ⟨Evidence.build (c16_node 0) .observation [("on".toList, 3/5), ("off".toList, 2/5), ("off".toList, 4/5)], rfl, by decide +kernel⟩

/-- **C102** in full is false of the code: `update_evidences` overwrites the likelihoods of the evidence handed to it (3/5 and 2/5
become 1 and 0), so that a later `add_value` (4/5 for "off") is compared with likelihoods nobody asked for: "on" stays observed. -/
theorem c102_false : ¬ ∀ (ops : List BOp) (jts : List JoinTree) (cmds : List EvCmd), Net.Usable ops →
    (∀ jt ∈ jts, ∃ it js, apply it js (Bbn.run ops) = .ok jt) → ProperProgram (Bbn.run ops).vars {} cmds →
    ∀ t : Nat, ((EvWorld.run { trees := jts } cmds).trees[t]?).map (fun jt => jt.getPosteriors.val?) =
      (jts[t]?).map (fun jt => (runHist jt (Plan.hist t {} cmds)).getPosteriors.val?) := by
  intro h
  have := h c16_ops c102_trees c102_bad c16_usable c102_trees_ok c102_bad_proper 0
  have := congrArg (fun o => o.bind (fun q => q.bind (fun d => Dict.get? d "a".toList))) this
  revert this
  decide +kernel

/-- a program that hands the same piece of evidence to `set_observation` twice; no likelihood is 1 -/
def c102_toggle : List EvCmd :=
  [.newEvidence (some (c16_node 0)) .observation, .addValue 0 "on".toList (3/5), .observe .same 0 0]

/-- **C102** fails in `set_observation` too: after a first call with likelihood 3/5 for "on", a second call with the same piece of
evidence withdraws the observation, whereas a piece of evidence made anew in the same way raises `IndexError`. -/
theorem c102_toggle_false :
    ProperProgram (Bbn.run c16_ops).vars {} (c102_toggle ++ [.observe .same 0 0]) ∧
    ((EvWorld.run { trees := c102_trees } c102_toggle).step (.observe .same 0 0)).2 = none ∧
    (((EvWorld.run { trees := c102_trees } c102_toggle).step (.observe .same 0 0)).1.trees[0]?).map (fun jt => Dict.get? jt.evidences 0) =
      some (some [("on".toList, 1), ("off".toList, 1)]) ∧
    ((c102_toggle.foldl Plan.step {}).op 0 (.observe .same 0 0)).map (fun x =>
      ((EvWorld.run { trees := c102_trees } c102_toggle).trees[0]?).map (fun jt => (x.2.run x.1 jt).2)) = some (some (some .indexError)) := by
  refine ⟨⟨trivial, trivial, ?_, ?_, trivial⟩, by decide +kernel, by decide +kernel, by decide +kernel⟩
  · exact ⟨Evidence.build (c16_node 0) .observation [("on".toList, 3/5)], rfl, by decide +kernel⟩
  · exact ⟨Evidence.build (c16_node 0) .observation [("on".toList, 3/5)], rfl, by decide +kernel⟩

end PyBBN
