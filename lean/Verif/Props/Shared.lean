import Verif.Proofs.Shared
import Verif.Props.Orders
import Verif.Props.Reapply

/-! # C69: join trees of one network do not disturb each other -/

namespace PyBBN
open Relation InferenceController

/-- the program does not edit the network -/
def Act.NoEdit : Act → Prop
  | .edit _ => False
  | _ => True

/-- evidence is about the network's own nodes (or foreign ids) -/
def Act.Nodes (vars : List Variable) : Act → Prop
  | .evid _ _ op => op.Nodes vars
  | _ => True

/-- the program only edits the network and enters evidence -/
def Act.EditOrEvidence : Act → Prop
  | .edit _ => True
  | .evid _ _ _ => True
  | _ => False

section
variable {ops : List BOp}

/-- the state of one tree: it is what it would be alone, and a shared one is the result of `apply` and evidence, with the objects
it was left with -/
structure TreeOk (ops : List BOp) (H : Dict Int NodeObj) (t : Bool × JoinTree) (l : TreeLog) : Prop where
  alone : l.alone (Bbn.run ops) = .ok t.2
  shared : t.1 = true → t.2.heap = H ∧ ∃ it js jt h, apply it js (Bbn.run ops) = .ok jt ∧ (∀ op ∈ h, op.2.Nodes (Bbn.run ops).vars) ∧
    t.2 = runHist jt h

structure WorldOk (ops : List BOp) (w : World) (ls : List TreeLog) : Prop where
  bbn : w.bbn = Bbn.run ops
  heap : w.heap = [] ∨ ∃ it js jt, apply it js (Bbn.run ops) = .ok jt ∧ w.heap = jt.heap
  trees : List.Forall₂ (TreeOk ops w.heap) w.trees ls

theorem apply_parentInfo {it : SetIter Int} {js : SetIter Str} {jt : JoinTree} (hu : Net.Sane ops)
    (hj : apply it js (Bbn.run ops) = .ok jt) : jt.parentInfo = parentInfoOf (Bbn.run ops) := by
  obtain ⟨_, jt', e1, _, _, _, _, e2, _⟩ := applyWith_spec it js (bbn_run_inv ops) hu.wf (vars_ne hu.wf hj) (leftover_nil _ _)
  have e : apply it js (Bbn.run ops) = .ok jt' := e1
  rw [hj] at e
  cases e
  exact e2

theorem WorldOk.look (hu : Net.Sane ops) {w : World} {ls : List TreeLog} (h : WorldOk ops w ls) {t : Bool × JoinTree} {l : TreeLog}
    (ht : TreeOk ops w.heap t l) : w.look t = t.2 := by
  obtain ⟨s, jt⟩ := t
  cases s with
  | false => rfl
  | true =>
    obtain ⟨h1, it, js, jt0, hist, hj, hn, h2⟩ := ht.shared rfl
    obtain ⟨_, _, _, _, _, _, _, hs⟩ := live_hist hu hj hist hn
    have h2' : jt = runHist jt0 hist := h2
    have h1' : jt.heap = w.heap := h1
    have hp : jt.parentInfo = parentInfoOf (Bbn.run ops) := by
      rw [h2', hs.parentInfo, apply_parentInfo hu hj]
    unfold World.look
    rw [if_pos rfl]
    show ({ jt with heap := w.heap, parentInfo := aliasInfo w.bbn jt.parentInfo } : JoinTree) = jt
    rw [h.bbn, hp, aliasInfo_id, ← hp, ← h1']

/-- on the objects of such a world `apply` does what it does on fresh ones -/
theorem WorldOk.apply_eq (hu : Net.Sane ops) {w : World} {ls : List TreeLog} (h : WorldOk ops w ls) (it : SetIter Int)
    (js : SetIter Str) : applyWith it js w.heap w.bbn = apply it js (Bbn.run ops) := by
  rw [h.bbn]
  rcases h.heap with e | ⟨it', js', jt', hj', e⟩
  · rw [e]; rfl
  · have := c20_apply it it' js js' hu
    rw [hj'] at this
    cases hj : apply it js (Bbn.run ops) with
    | error x => rw [hj] at this; simp [Py.err?] at this
    | ok jt =>
      rw [e]
      exact applyWith_left hu hj (apply_pcLeft hu hj')

theorem forall₂_getElem? {α β : Type} {R : α → β → Prop} : ∀ {l : List α} {m : List β}, List.Forall₂ R l m → ∀ (k : Nat) (a : α),
    l[k]? = some a → ∃ b, m[k]? = some b ∧ R a b
  | _, _, .nil, k, a, h => by simp at h
  | _, _, .cons (a := x) (b := y) hab ht, 0, a, h => by
      simp at h
      subst h
      exact ⟨y, rfl, hab⟩
  | _, _, .cons hab ht, k + 1, a, h => by
      rw [List.getElem?_cons_succ] at h
      obtain ⟨b, h1, h2⟩ := forall₂_getElem? ht k a h
      exact ⟨b, by rw [List.getElem?_cons_succ]; exact h1, h2⟩

theorem forall₂_set {α β : Type} {R S : α → β → Prop} (hRS : ∀ a b, R a b → S a b) {a' : α} {b' : β} (h' : S a' b') :
    ∀ {l : List α} {m : List β}, List.Forall₂ R l m → ∀ (k : Nat), List.Forall₂ S (l.set k a') (m.set k b')
  | _, _, .nil, k => .nil
  | _, _, .cons hab ht, 0 => .cons h' (ht.imp hRS)
  | _, _, .cons hab ht, k + 1 => .cons (hRS _ _ hab) (forall₂_set hRS h' ht k)

theorem forall₂_snoc {α β : Type} {R : α → β → Prop} {a : α} {b : β} (h' : R a b) :
    ∀ {l : List α} {m : List β}, List.Forall₂ R l m → List.Forall₂ R (l ++ [a]) (m ++ [b])
  | _, _, .nil => .cons h' .nil
  | _, _, .cons hab ht => .cons hab (forall₂_snoc h' ht)

theorem WorldOk.step (hu : Net.Sane ops) {w w' : World} {ls : List TreeLog} (h : WorldOk ops w ls) {a : Act} (hne : a.NoEdit)
    (hn : a.Nodes (Bbn.run ops).vars) (hs : w.step a = .ok w') : WorldOk ops w' (a.log ls) := by
  cases a with
  | edit op => exact absurd hne id
  | apply it js =>
    unfold World.step at hs
    obtain ⟨jt, h1, hs⟩ := bind_ok hs
    rw [h.apply_eq hu] at h1
    cases hs
    have hsame : ∀ t l, TreeOk ops w.heap t l → TreeOk ops jt.heap t l := by
      intro t l ht
      refine ⟨ht.alone, fun hts => ?_⟩
      obtain ⟨e, it', js', jt', hist, hj', hn', e'⟩ := ht.shared hts
      refine ⟨?_, it', js', jt', hist, hj', hn', e'⟩
      obtain ⟨_, _, _, _, _, _, _, hs⟩ := live_hist hu hj' hist hn'
      rw [e', hs.heap]
      exact apply_heap_same hu hj' h1
    exact ⟨h.bbn, Or.inr ⟨it, js, jt, h1, rfl⟩, forall₂_snoc ⟨h1, fun _ => ⟨rfl, it, js, jt, [], h1, by simp, rfl⟩⟩
      (h.trees.imp hsame)⟩
  | evid k js op =>
    unfold World.step at hs
    cases hk : w.trees[k]? with
    | none => simp [hk] at hs
    | some t =>
      obtain ⟨l, hl, ht⟩ := forall₂_getElem? h.trees k t hk
      simp only [hk, h.look hu ht, Except.ok.injEq] at hs
      subst hs
      have hlog : Act.log ls (.evid k js op) = ls.set k (.evid l js op) := by
        simp only [Act.log, hl]
      rw [hlog]
      have halone : (TreeLog.evid l js op).alone (Bbn.run ops) = .ok (op.run js t.2).1 := by
        show (l.alone (Bbn.run ops)).bind _ = _
        rw [ht.alone]
        rfl
      cases hb : t.1 with
      | false =>
        refine ⟨h.bbn, ?_, ?_⟩
        · simpa [hb] using h.heap
        · simp only [Bool.false_eq_true, if_false]
          exact forall₂_set (fun _ _ h => h) ⟨halone, fun h => by cases h⟩ h.trees k
      | true =>
        obtain ⟨e1, it, js', jt, hist, hj, hn', e2⟩ := ht.shared hb
        have e3 : (op.run js t.2).1 = runHist jt (hist ++ [(js, op)]) := by
          rw [e2]
          unfold runHist
          rw [List.foldl_append]
          rfl
        have hn2 : ∀ o ∈ hist ++ [(js, op)], o.2.Nodes (Bbn.run ops).vars := by
          intro o ho
          rcases List.mem_append.1 ho with ho | ho
          · exact hn' o ho
          · simp at ho; subst ho; exact hn
        have hheap : (op.run js t.2).1.heap = w.heap := by
          obtain ⟨_, _, _, _, _, _, _, hs⟩ := live_hist hu hj _ hn2
          obtain ⟨_, _, _, _, _, _, _, hs'⟩ := live_hist hu hj _ hn'
          rw [e3, hs.heap, ← hs'.heap, ← e2, e1]
        simp only [if_true]
        rw [hheap]
        exact ⟨h.bbn, h.heap, forall₂_set (fun _ _ h => h) ⟨halone, fun _ => ⟨hheap, it, js', jt, _, hj, hn2, e3⟩⟩ h.trees k⟩
  | reapply k js cpts =>
    unfold World.step at hs
    cases hk : w.trees[k]? with
    | none => simp [hk] at hs
    | some t =>
      obtain ⟨l, hl, ht⟩ := forall₂_getElem? h.trees k t hk
      simp only [hk, h.look hu ht] at hs
      obtain ⟨jt, h1, hs⟩ := bind_ok hs
      cases hs
      have hlog : Act.log ls (.reapply k js cpts) = ls ++ [.reapply l js cpts] := by
        simp only [Act.log, hl]
      rw [hlog]
      refine ⟨h.bbn, h.heap, forall₂_snoc ⟨?_, fun h => by cases h⟩ h.trees⟩
      show (l.alone (Bbn.run ops)).bind _ = _
      rw [ht.alone]
      exact h1

theorem WorldOk.run (hu : Net.Sane ops) : ∀ (acts : List Act) {w w' : World} {ls : List TreeLog}, WorldOk ops w ls →
    (∀ a ∈ acts, a.NoEdit ∧ a.Nodes (Bbn.run ops).vars) → acts.foldlM World.step w = .ok w' → WorldOk ops w' (acts.foldl Act.log ls)
  | [], w, w', ls, h, _, hr => by
      rw [List.foldlM_nil] at hr
      cases hr
      exact h
  | a :: acts, w, w', ls, h, ha, hr => by
      rw [List.foldlM_cons] at hr
      obtain ⟨w1, h1, h2⟩ := bind_ok hr
      exact WorldOk.run hu acts (h.step hu (ha a List.mem_cons_self).1 (ha a List.mem_cons_self).2 h1)
        (fun b hb => ha b (List.mem_cons_of_mem _ hb)) h2

theorem worldOk_start (ops : List BOp) : WorldOk ops ⟨Bbn.run ops, [], []⟩ [] := ⟨rfl, Or.inl rfl, .nil⟩

end

/-! ## C69 -/

/-- **C69**, partial. A program holds any number of join trees made from one network by `apply` and `reapply`, and uses them in any
interleaving: every tree is at all times exactly the tree it would be if its calls had been made on a network of its own. The next
call behaves alike, too: `apply` on the used node objects returns what it returns on fresh ones, and `reapply` raises where it
would. Missing: networks that are edited in between (`c69_edits_partial`, `c69_false`). -/
theorem c69_alone_partial {ops : List BOp} (hu : Net.Sane ops) (acts : List Act)
    (ha : ∀ a ∈ acts, a.NoEdit ∧ a.Nodes (Bbn.run ops).vars) {w : World} (hw : World.run (Bbn.run ops) acts = .ok w) :
    List.Forall₂ (fun t l => l.alone (Bbn.run ops) = .ok (w.look t)) w.trees (logsOf acts) ∧
    (∀ it js, applyWith it js w.heap w.bbn = apply it js (Bbn.run ops)) ∧
    (∀ k l js cpts, (logsOf acts)[k]? = some l → (w.step (.reapply k js cpts)).err? = ((TreeLog.reapply l js cpts).alone (Bbn.run ops)).err?) := by
  have h : WorldOk ops w (logsOf acts) := WorldOk.run hu acts (worldOk_start ops) ha hw
  refine ⟨h.trees.imp (fun t l ht => ?_), h.apply_eq hu, ?_⟩
  · rw [h.look hu ht]; exact ht.alone
  · intro k l js cpts hl
    cases hk : w.trees[k]? with
    | none =>
      have h1 := List.getElem?_eq_none_iff.1 hk
      have h2 := (List.getElem?_eq_some_iff.1 hl).1
      rw [← h.trees.length_eq] at h2
      omega
    | some t =>
      obtain ⟨l', hl', ht⟩ := forall₂_getElem? h.trees k t hk
      rw [hl] at hl'
      cases hl'
      have e : (TreeLog.reapply l js cpts).alone (Bbn.run ops) = InferenceController.reapply js t.2 cpts := by
        show (l.alone (Bbn.run ops)).bind _ = _
        rw [ht.alone]
        rfl
      rw [e]
      unfold World.step
      simp only [hk, h.look hu ht]
      cases InferenceController.reapply js t.2 cpts <;> rfl

/-- **C69**, partial: the posteriors. Every tree made by `apply` from a connected network answers exactly for the evidence that
was entered into that tree, whatever was done with the other trees. -/
theorem c69_posteriors_partial {ops : List BOp} (hu : Net.Usable ops) (acts : List Act)
    (ha : ∀ a ∈ acts, a.NoEdit ∧ a.Nodes (Bbn.run ops).vars) {w : World} (hw : World.run (Bbn.run ops) acts = .ok w)
    {k : Nat} {t : Bool × JoinTree} (hk : w.trees[k]? = some t) {it : SetIter Int} {js : SetIter Str} {h : List (SetIter Str × EvOp)}
    (hl : (logsOf acts)[k]? = some (h.foldl (fun l op => TreeLog.evid l op.1 op.2) (.apply it js)))
    (hp : ∀ op ∈ h, op.2.Ok (Bbn.run ops).vars) :
    ∀ v ∈ (Bbn.run ops).vars, (w.look t).getBbnPotential v = .ok (posteriorTable (Bbn.run ops) (specHist (Bbn.run ops).vars h) v) := by
  intro v hv
  obtain ⟨h1, _⟩ := c69_alone_partial hu.toSane acts ha hw
  obtain ⟨l, hl', e⟩ := forall₂_getElem? h1 k t hk
  rw [hl] at hl'
  cases hl'
  have key : ∀ (h : List (SetIter Str × EvOp)) (l : TreeLog) (r : JoinTree),
      (h.foldl (fun l op => TreeLog.evid l op.1 op.2) l).alone (Bbn.run ops) = .ok r →
      ∃ jt, l.alone (Bbn.run ops) = .ok jt ∧ r = runHist jt h := by
    intro h
    induction h with
    | nil => intro l r hr; exact ⟨r, hr, rfl⟩
    | cons op h ih =>
      intro l r hr
      obtain ⟨jt, h1, h2⟩ := ih _ _ hr
      obtain ⟨jt0, h3, h4⟩ := bind_ok (show (l.alone (Bbn.run ops)).bind _ = _ from h1)
      cases h4
      exact ⟨jt0, h3, h2⟩
  obtain ⟨jt, hj, e'⟩ := key h _ _ e
  rw [e']
  exact (c18_posteriors_exact_partial hu hj h hp v hv).2

/-! ### edits -/

theorem Calib.withInfo {vars : List Variable} {cs : List Clique} {T : List SepSet} {N : Net} {ℓ : Liks} {jt : JoinTree}
    (h : Calib vars cs T N ℓ jt) (p : Dict Int (List Int)) : Calib vars cs T N ℓ { jt with parentInfo := p } := by
  obtain ⟨χ, R, ks, vs, h1, h2, h3, h4, h5, h6, h7⟩ := h.tabs
  exact ⟨h.ctx.frame rfl rfl, h.done, h.ev, h.likNonneg, ⟨χ, R, ks, vs, h1, ⟨h2.1, h2.2, h2.3, h2.4, h2.5⟩, h3, h4, h5, h6, h7⟩⟩

/-- a shared tree of an edited network: everything but `parent_info` is as if the network had not been edited -/
structure TreeEd (ops : List BOp) (H : Dict Int NodeObj) (t : Bool × JoinTree) (l : TreeLog) : Prop where
  own : t.1 = false → l.alone (Bbn.run ops) = .ok t.2
  shared : t.1 = true → t.2.heap = H ∧ ∃ it js jt h T, apply it js (Bbn.run ops) = .ok jt ∧ (∀ op ∈ h, op.2.Nodes (Bbn.run ops).vars) ∧
    l.alone (Bbn.run ops) = .ok (runHist jt h) ∧
    Live (Bbn.run ops).vars (Triangulator.triangulate it (moralize (Bbn.run ops))).1 T (Bbn.run ops).net
      (evHist (Bbn.run ops).vars ⟨jt.evidences, noEvidence⟩ h).prop t.2 ∧
    EvEq t.2.evidences (evHist (Bbn.run ops).vars ⟨jt.evidences, noEvidence⟩ h).ev ∧
    SameTree { t.2 with parentInfo := jt.parentInfo } jt

section
variable {ops : List BOp}

theorem TreeOk.ed (hu : Net.Sane ops) {H : Dict Int NodeObj} {t : Bool × JoinTree} {l : TreeLog} (h : TreeOk ops H t l) :
    TreeEd ops H t l := by
  refine ⟨fun _ => h.alone, fun hs => ?_⟩
  obtain ⟨h1, it, js, jt, hist, hj, hn, e⟩ := h.shared hs
  obtain ⟨T, l1, _, l3⟩ := live_apply hu hj
  obtain ⟨a, b, c⟩ := Live.hist (Bbn.net_ok (bbn_run_inv ops) hu.wf) l3 hu.vals hist (s := ⟨jt.evidences, noEvidence⟩) l1 (EvEq.refl _) hn
  refine ⟨h1, it, js, jt, hist, T, hj, hn, ?_, ?_, ?_, ?_⟩
  · rw [← e]; exact h.alone
  · rw [e]; exact a
  · rw [e]; exact b
  · rw [e]; exact ⟨c.nodes, c.edges, c.neighbors, c.heap, rfl⟩

theorem TreeEd.step (hu : Net.Sane ops) {w w' : World} {ls : List TreeLog} (h : List.Forall₂ (TreeEd ops w.heap) w.trees ls) {a : Act}
    (hne : a.EditOrEvidence) (hn : a.Nodes (Bbn.run ops).vars) (hs : w.step a = .ok w') :
    List.Forall₂ (TreeEd ops w'.heap) w'.trees (a.log ls) := by
  cases a with
  | edit op =>
    unfold World.step at hs
    cases hs
    exact h
  | apply it js => exact absurd hne id
  | reapply k js cpts => exact absurd hne id
  | evid k js op =>
    unfold World.step at hs
    cases hk : w.trees[k]? with
    | none => simp [hk] at hs
    | some t =>
      obtain ⟨l, hl, ht⟩ := forall₂_getElem? h k t hk
      simp only [hk, Except.ok.injEq] at hs
      subst hs
      have hlog : Act.log ls (.evid k js op) = ls.set k (.evid l js op) := by
        simp only [Act.log, hl]
      rw [hlog]
      obtain ⟨sh, jt⟩ := t
      cases sh with
      | false =>
        simp only [Bool.false_eq_true, if_false]
        refine forall₂_set (fun _ _ h => h) ⟨fun _ => ?_, fun h => by cases h⟩ h k
        show (l.alone (Bbn.run ops)).bind _ = _
        rw [ht.own rfl]
        rfl
      | true =>
        obtain ⟨e1, it, js', jt0, hist, T, hj, hn', ha, hlive, hev, hsame⟩ := ht.shared rfl
        have e1' : jt.heap = w.heap := e1
        have hlook : w.look (true, jt) = { jt with parentInfo := aliasInfo w.bbn jt.parentInfo } := by
          unfold World.look
          rw [if_pos rfl, ← e1']
        have hlive' : Live (Bbn.run ops).vars (Triangulator.triangulate it (moralize (Bbn.run ops))).1 T (Bbn.run ops).net
            (evHist (Bbn.run ops).vars ⟨jt0.evidences, noEvidence⟩ hist).prop (w.look (true, jt)) := by
          rw [hlook]
          exact ⟨hlive.calib.withInfo _, hlive.foreign, hlive.range, hlive.listen⟩
        have hev' : EvEq (w.look (true, jt)).evidences (evHist (Bbn.run ops).vars ⟨jt0.evidences, noEvidence⟩ hist).ev := by
          rw [hlook]; exact hev
        have hne0 := (live_apply hu hj).choose_spec.2.2
        obtain ⟨b1, b2, b3⟩ := Live.hist (Bbn.net_ok (bbn_run_inv ops) hu.wf) hne0 hu.vals [(js, op)] hlive' hev'
          (by intro o ho; simp at ho; subst ho; exact hn)
        have hrun : runHist (w.look (true, jt)) [(js, op)] = (op.run js (w.look (true, jt))).1 := rfl
        have hevh : evHist (Bbn.run ops).vars (evHist (Bbn.run ops).vars ⟨jt0.evidences, noEvidence⟩ hist) [(js, op)] =
            evHist (Bbn.run ops).vars ⟨jt0.evidences, noEvidence⟩ (hist ++ [(js, op)]) := by
          unfold evHist
          rw [List.foldl_append]
        rw [hrun] at b1 b2 b3
        rw [hevh] at b1 b2
        have hheap : (op.run js (w.look (true, jt))).1.heap = w.heap := by
          rw [b3.heap, hlook]; exact e1'
        simp only [if_true]
        rw [hheap]
        refine forall₂_set (fun _ _ h => h) ⟨fun h => (by cases h), fun _ => ⟨hheap, it, js', jt0, hist ++ [(js, op)], T, hj, ?_, ?_, b1, b2, ?_⟩⟩ h k
        · intro o ho
          rcases List.mem_append.1 ho with ho | ho
          · exact hn' o ho
          · simp at ho; subst ho; exact hn
        · show (l.alone (Bbn.run ops)).bind _ = _
          rw [ha]
          unfold runHist
          rw [List.foldl_append]
          rfl
        · have c1 : (w.look (true, jt)).nodes = jt.nodes := by rw [hlook]
          have c2 : (w.look (true, jt)).edges = jt.edges := by rw [hlook]
          have c3 : (w.look (true, jt)).neighbors = jt.neighbors := by rw [hlook]
          have c4 : (w.look (true, jt)).heap = jt.heap := by rw [hlook]
          exact ⟨(b3.nodes.trans c1).trans hsame.nodes, (b3.edges.trans c2).trans hsame.edges,
            (b3.neighbors.trans c3).trans hsame.neighbors, (b3.heap.trans c4).trans hsame.heap, rfl⟩

theorem TreeEd.run (hu : Net.Sane ops) : ∀ (acts : List Act) {w w' : World} {ls : List TreeLog},
    List.Forall₂ (TreeEd ops w.heap) w.trees ls → (∀ a ∈ acts, a.EditOrEvidence ∧ a.Nodes (Bbn.run ops).vars) →
    acts.foldlM World.step w = .ok w' → List.Forall₂ (TreeEd ops w'.heap) w'.trees (acts.foldl Act.log ls)
  | [], w, w', ls, h, _, hr => by
      rw [List.foldlM_nil] at hr
      cases hr
      exact h
  | a :: acts, w, w', ls, h, ha, hr => by
      rw [List.foldlM_cons] at hr
      obtain ⟨w1, h1, h2⟩ := bind_ok hr
      exact TreeEd.run hu acts (TreeEd.step hu h (ha a List.mem_cons_self).1 (ha a List.mem_cons_self).2 h1)
        (fun b hb => ha b (List.mem_cons_of_mem _ hb)) h2

end

/-- **C69**, partial, edited networks: join trees survive `add_node` and `add_edge` on the network they were made from. After any
program on the unedited network, edits and evidence in any order: the posteriors of every tree are those of the tree alone on the
unedited network. Missing: calling `apply` again, or `reapply` on such a tree, after the edit (`c69_false`). -/
theorem c69_edits_partial {ops : List BOp} (hu : Net.Sane ops) (acts acts' : List Act)
    (ha : ∀ a ∈ acts, a.NoEdit ∧ a.Nodes (Bbn.run ops).vars) (ha' : ∀ a ∈ acts', a.EditOrEvidence ∧ a.Nodes (Bbn.run ops).vars)
    {w : World} (hw : World.run (Bbn.run ops) (acts ++ acts') = .ok w) :
    List.Forall₂ (fun t l => ∃ jt, l.alone (Bbn.run ops) = .ok jt ∧
      ∀ v ∈ (Bbn.run ops).vars, (w.look t).getBbnPotential v = jt.getBbnPotential v) w.trees (logsOf (acts ++ acts')) := by
  unfold World.run at hw
  rw [List.foldlM_append] at hw
  obtain ⟨w1, h1, h2⟩ := bind_ok hw
  have hok := WorldOk.run hu acts (worldOk_start ops) ha h1
  have hed := TreeEd.run hu acts' (hok.trees.imp (fun _ _ h => h.ed hu)) ha' h2
  have hlogs : logsOf (acts ++ acts') = acts'.foldl Act.log (acts.foldl Act.log []) := by
    unfold logsOf
    rw [List.foldl_append]
  rw [hlogs]
  refine hed.imp (fun t l ht => ?_)
  obtain ⟨sh, jt⟩ := t
  cases sh with
  | false => exact ⟨jt, ht.own rfl, fun v _ => rfl⟩
  | true =>
    obtain ⟨e1, it, js', jt0, hist, T, hj, hn', ha, hlive, hev, hsame⟩ := ht.shared rfl
    have e1' : jt.heap = w.heap := e1
    refine ⟨_, ha, ?_⟩
    intro v hv
    have hlook : w.look (true, jt) = { jt with parentInfo := aliasInfo w.bbn jt.parentInfo } := by
      unfold World.look
      rw [if_pos rfl, ← e1']
    obtain ⟨T1, l1, _, l3⟩ := live_apply hu hj
    obtain ⟨a, b, c⟩ := Live.hist (Bbn.net_ok (bbn_run_inv ops) hu.wf) l3 hu.vals hist (s := ⟨jt0.evidences, noEvidence⟩) l1 (EvEq.refl _) hn'
    have hlive2 : Live (Bbn.run ops).vars (Triangulator.triangulate it (moralize (Bbn.run ops))).1 T (Bbn.run ops).net
        (evHist (Bbn.run ops).vars ⟨jt0.evidences, noEvidence⟩ hist).prop { jt with parentInfo := jt0.parentInfo } :=
      ⟨hlive.calib.withInfo _, hlive.foreign, hlive.range, hlive.listen⟩
    have key := live_same hu hj hj hsame c hlive2 a v hv
    rw [← key, hlook]
    rfl

/-- C69 is not vacuous: two trees of the example network, made in different iteration orders, with evidence on each in turn, and a
copy with new CPTs; then node 6 is added below node 5 and more evidence entered. -/
def c69_acts : List Act :=
  [.apply .same .same, .evid 0 .same (.observe (Evidence.build (c16_node 3) .observation [("on".toList, 1)])),
   .apply .rev .rev, .evid 1 .rev (.observe (Evidence.build (c16_node 0) .observation [("off".toList, 1)])),
   .reapply 0 .same [(0, [2/3, 1/3])], .evid 0 .same .unobserveAll]

def c69_acts' : List Act :=
  [.edit (.addNode (mkNode 6 "g" [1/2, 1/2])), .evid 1 .same (.observe (Evidence.build (c16_node 3) .observation [("on".toList, 1)])),
   .edit (.addEdge (mkNode 6 "g" [1/2, 1/2]) ⟨c16_node 4, []⟩)]

theorem c69_acts_ok : (∀ a ∈ c69_acts, a.NoEdit ∧ a.Nodes (Bbn.run c16_ops).vars) ∧
    (∀ a ∈ c69_acts', a.EditOrEvidence ∧ a.Nodes (Bbn.run c16_ops).vars) := by
  constructor
  · intro a ha
    simp only [c69_acts, List.mem_cons, List.not_mem_nil, or_false] at ha
    rcases ha with rfl | rfl | rfl | rfl | rfl | rfl
    · exact ⟨trivial, trivial⟩
    · exact ⟨trivial, by unfold NodeOk; decide +kernel, by decide +kernel⟩
    · exact ⟨trivial, trivial⟩
    · exact ⟨trivial, by unfold NodeOk; decide +kernel, by decide +kernel⟩
    · exact ⟨trivial, trivial⟩
    · exact ⟨trivial, trivial⟩
  · intro a ha
    simp only [c69_acts', List.mem_cons, List.not_mem_nil, or_false] at ha
    rcases ha with rfl | rfl | rfl
    · exact ⟨trivial, trivial⟩
    · exact ⟨trivial, by unfold NodeOk; decide +kernel, by decide +kernel⟩
    · exact ⟨trivial, trivial⟩

/-- what node `v` reads in each tree of a program -/
def worldReads (b : Bbn) (acts : List Act) (v : Variable) : Option (List (Option (List ℚ))) :=
  (World.run b acts).val?.map (fun w => w.trees.map (fun t => ((w.look t).getBbnPotential v).val?.map (fun P => P.map PEntry.value)))

/-- what node `v` reads in each tree of the same program if every tree is alone -/
def aloneReads (b : Bbn) (acts : List Act) (v : Variable) : List (Option (List ℚ)) :=
  (logsOf acts).map (fun l => (l.alone b).val?.bind (fun jt => (jt.getBbnPotential v).val?.map (fun P => P.map PEntry.value)))

example : Net.Usable c16_ops ∧ (∀ a ∈ c69_acts, a.NoEdit ∧ a.Nodes (Bbn.run c16_ops).vars) ∧
    (∀ a ∈ c69_acts', a.EditOrEvidence ∧ a.Nodes (Bbn.run c16_ops).vars) ∧
    worldReads (Bbn.run c16_ops) (c69_acts ++ c69_acts') (c16_node 4) = some (aloneReads (Bbn.run c16_ops) (c69_acts ++ c69_acts') (c16_node 4)) ∧
    (aloneReads (Bbn.run c16_ops) (c69_acts ++ c69_acts') (c16_node 4)).length = 3 ∧
    (aloneReads (Bbn.run c16_ops) (c69_acts ++ c69_acts') (c16_node 4)).Nodup :=
  ⟨c16_usable, c69_acts_ok.1, c69_acts_ok.2, by decide +kernel, by decide +kernel, by decide +kernel⟩

/-- the hypothesis of `c69_posteriors_partial` about the log is met by both trees made by `apply` -/
example : (logsOf c69_acts)[1]? = some ([(SetIter.rev, EvOp.observe (Evidence.build (c16_node 0) .observation [("off".toList, 1)]))].foldl
    (fun l op => TreeLog.evid l op.1 op.2) (.apply .rev .rev)) := rfl

/-- a tree of the network `a → b`; then `c → a` is added and `apply` called once more; then evidence on the first tree -/
def c69_bad : List Act :=
  [.apply .same .same, .edit (.addEdge (mkNode 2 "c" [1/5, 4/5]) (mkNode 0 "a" [1/4, 3/4, 1/2, 1/2])), .apply .same .same,
   .evid 0 .same (.observe (Evidence.build (mkNode 1 "b" []).var .observation [("on".toList, 1)])),
   .evid 0 .same (.observe (Evidence.build (mkNode 1 "b" []).var .observation [("off".toList, 1)]))]

/-- a tree of the network `a → b`; then `c → b` is added and the tree is reapplied with a new CPT for `a` -/
def c69_bad' : List Act :=
  [.apply .same .same, .edit (.addEdge (mkNode 2 "c" [1/5, 4/5]) (mkNode 1 "b" [1/2, 1/2, 1/4, 3/4])),
   .reapply 0 .same [(0, [1/3, 2/3])]]

/-- **C69 is false of the code** once a network that already has a join tree is edited. (1) `apply`, `add_edge`, `apply`, then a
change of evidence on the first tree: the second `apply` has overwritten the node potentials that the first tree starts from, and
the first tree gives 2/5, 3/5 for node 0 where 2/11, 9/11 is right. (2) `apply`, `add_edge`, `reapply` on the tree: the tree's
`parent_info` holds the network's own parent lists, so `reapply` looks for the new parent in the old tree and raises `KeyError`;
alone it succeeds. -/
theorem c69_false :
    (Net.Usable c29_before ∧ (Bbn.run c29_after).WF ∧ (∀ a ∈ c69_bad, a.Nodes (Bbn.run c29_before).vars) ∧
      (worldReads (Bbn.run c29_before) c69_bad (mkNode 0 "a" []).var).bind (fun l => l[0]?) = some (some [2/5, 3/5]) ∧
      (aloneReads (Bbn.run c29_before) c69_bad (mkNode 0 "a" []).var)[0]? = some (some [2/11, 9/11])) ∧
    ((World.run (Bbn.run c29_before) c69_bad').err? = some .keyError ∧
      (aloneReads (Bbn.run c29_before) c69_bad' (mkNode 0 "a" []).var)[1]? = some (some [1/3, 2/3])) := by
  refine ⟨⟨⟨⟨wf_of_check (by decide +kernel) (by decide +kernel), by decide +kernel⟩, ?_⟩,
    wf_of_check (by decide +kernel) (by decide +kernel), ?_, by decide +kernel, by decide +kernel⟩, by decide +kernel, by decide +kernel⟩
  · have hv : ∀ u ∈ (Bbn.run c29_before).vars, EqvGen (fun p c => (p, c) ∈ BOp.edges c29_before) 0 u.id := by
      have e : (Bbn.run c29_before).vars = [(mkNode 0 "a" []).var, (mkNode 1 "b" []).var] := by decide +kernel
      intro u hu
      rw [e] at hu
      simp only [List.mem_cons, List.not_mem_nil, or_false] at hu
      rcases hu with rfl | rfl
      · exact EqvGen.refl _
      · exact EqvGen.rel _ _ (by decide +kernel)
    intro u hu v hv'
    exact EqvGen.trans _ _ _ (EqvGen.symm _ _ (hv u hu)) (hv v hv')
  · intro a ha
    simp only [c69_bad, List.mem_cons, List.not_mem_nil, or_false] at ha
    rcases ha with rfl | rfl | rfl | rfl | rfl
    · trivial
    · trivial
    · trivial
    · exact ⟨by unfold NodeOk; decide +kernel, by decide +kernel⟩
    · exact ⟨by unfold NodeOk; decide +kernel, by decide +kernel⟩

end PyBBN
