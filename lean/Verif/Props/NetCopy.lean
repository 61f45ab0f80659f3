import Verif.Proofs.NetCopy
import Verif.Props.Inference

/-! # Copies of networks: C85 -/

namespace PyBBN

/-- **C85**, every program: whatever sequence of `Bbn()`, `copy.copy`, `copy.deepcopy` and calls on the networks a program makes,
each of its variables shows the network that the specification names: a shallow copy is another name for the same network, a deep
copy is a network of its own with the content at the time of copying, and a call changes the network it is made on and no
other. -/
theorem c85_refines (acts : List NetAct) (k : Nat) :
    ((NetWorld.run acts).nets[k]?).map (NetWorld.run acts).mem.view =
      ((SpecWorld.run acts).names[k]?).map (fun g => ((SpecWorld.run acts).vals.getD g Bbn.empty).view) := by
  obtain ⟨rs, h⟩ := worldShows_run acts
  rcases h.name k with ⟨h1, h2⟩ | ⟨r, g, b, h1, h2, h3, h4⟩
  · rw [h1, h2]; rfl
  · rw [h1, h2]
    simp only [Option.map_some, Option.some.injEq]
    rw [List.getD_eq_getElem?_getD, h4]
    exact (h.shows_ g r b h3 h4).view

/-- calls on two networks in any interleaving: `false` for the `k`-th, `true` for the `n`-th -/
def onTwo (k n : Nat) (ops : List (Bool × NetOp)) : List NetAct := ops.map (fun o => NetAct.op (if o.1 then n else k) o.2)

/-- the calls on one of them -/
def sideOps (s : Bool) (ops : List (Bool × NetOp)) : List NetOp := (ops.filter (fun o => o.1 == s)).map Prod.snd

theorem spec_step_op (s : SpecWorld) (k g : Nat) (o : NetOp) (hk : s.names[k]? = some g) :
    s.step (.op k o) = { s with vals := s.vals.set g (o.spec (s.vals.getD g Bbn.empty)) } := by
  simp only [SpecWorld.step, hk]

theorem onTwo_spec (k n : Nat) (g h : Nat) (hgh : g ≠ h) : ∀ (ops : List (Bool × NetOp)) (s : SpecWorld), s.names[k]? = some g →
    s.names[n]? = some h → g < s.vals.length → h < s.vals.length →
    let s' := (onTwo k n ops).foldl SpecWorld.step s
    s'.names = s.names ∧ s'.vals.getD g Bbn.empty = (sideOps false ops).foldl NetOp.spec (s.vals.getD g Bbn.empty) ∧
      s'.vals.getD h Bbn.empty = (sideOps true ops).foldl NetOp.spec (s.vals.getD h Bbn.empty)
  | [], s, _, _, _, _ => ⟨rfl, rfl, rfl⟩
  | (false, o) :: ops, s, h1, h2, h3, h4 => by
      have e := spec_step_op s k g o h1
      have ih := onTwo_spec k n g h hgh ops (s.step (.op k o)) (by rw [e]; exact h1) (by rw [e]; exact h2)
        (by rw [e]; simpa using h3) (by rw [e]; simpa using h4)
      obtain ⟨i1, i2, i3⟩ := ih
      refine ⟨?_, ?_, ?_⟩
      · show ((onTwo k n ops).foldl SpecWorld.step (s.step (.op k o))).names = _
        rw [i1, e]
      · show ((onTwo k n ops).foldl SpecWorld.step (s.step (.op k o))).vals.getD g Bbn.empty = _
        rw [i2, e]
        show _ = (sideOps false ops).foldl NetOp.spec (o.spec (s.vals.getD g Bbn.empty))
        rw [getD_set_self h3]
      · show ((onTwo k n ops).foldl SpecWorld.step (s.step (.op k o))).vals.getD h Bbn.empty = _
        rw [i3, e]
        show _ = (sideOps true ops).foldl NetOp.spec (s.vals.getD h Bbn.empty)
        rw [getD_set_ne hgh]
  | (true, o) :: ops, s, h1, h2, h3, h4 => by
      have e := spec_step_op s n h o h2
      have ih := onTwo_spec k n g h hgh ops (s.step (.op n o)) (by rw [e]; exact h1) (by rw [e]; exact h2)
        (by rw [e]; simpa using h3) (by rw [e]; simpa using h4)
      obtain ⟨i1, i2, i3⟩ := ih
      refine ⟨?_, ?_, ?_⟩
      · show ((onTwo k n ops).foldl SpecWorld.step (s.step (.op n o))).names = _
        rw [i1, e]
      · show ((onTwo k n ops).foldl SpecWorld.step (s.step (.op n o))).vals.getD g Bbn.empty = _
        rw [i2, e]
        show _ = (sideOps false ops).foldl NetOp.spec (s.vals.getD g Bbn.empty)
        rw [getD_set_ne (fun e => hgh e.symm)]
      · show ((onTwo k n ops).foldl SpecWorld.step (s.step (.op n o))).vals.getD h Bbn.empty = _
        rw [i3, e]
        show _ = (sideOps true ops).foldl NetOp.spec (o.spec (s.vals.getD h Bbn.empty))
        rw [getD_set_self h4]

theorem onTwo_alias (k n : Nat) (g : Nat) : ∀ (ops : List (Bool × NetOp)) (s : SpecWorld), s.names[k]? = some g →
    s.names[n]? = some g → g < s.vals.length →
    let s' := (onTwo k n ops).foldl SpecWorld.step s
    s'.names = s.names ∧ s'.vals.getD g Bbn.empty = (ops.map Prod.snd).foldl NetOp.spec (s.vals.getD g Bbn.empty)
  | [], s, _, _, _ => ⟨rfl, rfl⟩
  | (x, o) :: ops, s, h1, h2, h3 => by
      have hk : s.names[if x then n else k]? = some g := by cases x; exacts [h1, h2]
      have e := spec_step_op s (if x then n else k) g o hk
      have ih := onTwo_alias k n g ops (s.step (.op (if x then n else k) o)) (by rw [e]; exact h1) (by rw [e]; exact h2)
        (by rw [e]; simpa using h3)
      refine ⟨?_, ?_⟩
      · show ((onTwo k n ops).foldl SpecWorld.step (s.step (.op (if x then n else k) o))).names = _
        rw [ih.1, e]
      · show ((onTwo k n ops).foldl SpecWorld.step (s.step (.op (if x then n else k) o))).vals.getD g Bbn.empty = _
        rw [ih.2, e]
        show _ = (ops.map Prod.snd).foldl NetOp.spec (o.spec (s.vals.getD g Bbn.empty))
        rw [getD_set_self h3]

theorem names_len (acts : List NetAct) : (NetWorld.run acts).nets.length = (SpecWorld.run acts).names.length := by
  obtain ⟨rs, h⟩ := worldShows_run acts
  have := congrArg List.length h.names
  simpa using this

/-- **C85**, deep copies. At any point of any program, deep-copy the `k`-th network and go on with any calls on the original and on
the copy, interleaved in any way: each of the two shows exactly what its own calls make of the network that was copied. -/
theorem c85_deep_independent (acts : List NetAct) {k : Nat} {r : NetRef} (hk : (NetWorld.run acts).nets[k]? = some r)
    (ops : List (Bool × NetOp)) :
    ∃ b : Bbn, (NetWorld.run acts).mem.view r = b.view ∧
      let w := NetWorld.run (acts ++ NetAct.deepcopy k :: onTwo k (NetWorld.run acts).nets.length ops)
      ∃ r1 r2, w.nets[k]? = some r1 ∧ w.nets[(NetWorld.run acts).nets.length]? = some r2 ∧
        w.mem.view r1 = ((sideOps false ops).foldl NetOp.spec b).view ∧
        w.mem.view r2 = ((sideOps true ops).foldl NetOp.spec b).view := by
  obtain ⟨rs, h⟩ := worldShows_run acts
  rcases h.name k with ⟨h1, _⟩ | ⟨r', g, b, h1, h2, h3, h4⟩
  · rw [hk] at h1; cases h1
  · have e : r' = r := by rw [hk] at h1; exact (Option.some.inj h1).symm
    subst e
    refine ⟨b, (h.shows_ g r' b h3 h4).view, ?_⟩
    intro w
    set n := (NetWorld.run acts).nets.length with hn
    have hlen := names_len acts
    have hgl : g < (SpecWorld.run acts).vals.length := by
      rw [← not_le]; intro hc; rw [List.getElem?_eq_none hc] at h4; cases h4
    have hb : (SpecWorld.run acts).vals.getD g Bbn.empty = b := by rw [List.getD_eq_getElem?_getD, h4]; rfl
    set s1 := (SpecWorld.run acts).step (.deepcopy k) with hs1
    have e1 : s1 = { vals := (SpecWorld.run acts).vals ++ [b], names := (SpecWorld.run acts).names ++ [(SpecWorld.run acts).vals.length] } := by
      rw [hs1]; simp only [SpecWorld.step, h2, hb]
    have hkl : k < (SpecWorld.run acts).names.length := by
      rw [← not_le]; intro hc; rw [List.getElem?_eq_none hc] at h2; cases h2
    have n1 : s1.names[k]? = some g := by rw [e1]; simp only; rw [List.getElem?_append_left hkl, h2]
    have n2 : s1.names[n]? = some (SpecWorld.run acts).vals.length := by
      rw [e1]; simp only; rw [hn, hlen]; exact List.getElem?_concat_length
    have hrun : SpecWorld.run (acts ++ NetAct.deepcopy k :: onTwo k n ops) = (onTwo k n ops).foldl SpecWorld.step s1 := by
      unfold SpecWorld.run
      rw [List.foldl_append]
      rfl
    obtain ⟨i1, i2, i3⟩ := onTwo_spec k n g (SpecWorld.run acts).vals.length (Nat.ne_of_lt hgl) ops s1 n1 n2
      (by rw [e1]; simp; omega) (by rw [e1]; simp)
    have v1 : s1.vals.getD g Bbn.empty = b := by rw [e1]; simp only; rw [getD_append_lt hgl, hb]
    have v2 : s1.vals.getD (SpecWorld.run acts).vals.length Bbn.empty = b := by rw [e1]; exact getD_concat_len _
    rw [v1] at i2
    rw [v2] at i3
    have q1 := c85_refines (acts ++ NetAct.deepcopy k :: onTwo k n ops) k
    have q2 := c85_refines (acts ++ NetAct.deepcopy k :: onTwo k n ops) n
    rw [hrun, i1, n1] at q1
    rw [hrun, i1, n2] at q2
    simp only [Option.map_some, i2, i3, Option.map_eq_some_iff] at q1 q2
    obtain ⟨r1, a1, a2⟩ := q1
    obtain ⟨r2, c1, c2⟩ := q2
    exact ⟨r1, r2, a1, c1, a2, c2⟩

/-- **C85**, shallow copies. After `copy.copy` every call, on the original or on the copy, changes both: the two variables always
show the same network. -/
theorem c85_shallow_alias (acts : List NetAct) {k : Nat} {r : NetRef} (hk : (NetWorld.run acts).nets[k]? = some r)
    (ops : List (Bool × NetOp)) :
    ∃ b : Bbn, (NetWorld.run acts).mem.view r = b.view ∧
      let w := NetWorld.run (acts ++ NetAct.copy k :: onTwo k (NetWorld.run acts).nets.length ops)
      ∃ r1 r2, w.nets[k]? = some r1 ∧ w.nets[(NetWorld.run acts).nets.length]? = some r2 ∧
        w.mem.view r1 = ((ops.map Prod.snd).foldl NetOp.spec b).view ∧
        w.mem.view r2 = ((ops.map Prod.snd).foldl NetOp.spec b).view := by
  obtain ⟨rs, h⟩ := worldShows_run acts
  rcases h.name k with ⟨h1, _⟩ | ⟨r', g, b, h1, h2, h3, h4⟩
  · rw [hk] at h1; cases h1
  · have e : r' = r := by rw [hk] at h1; exact (Option.some.inj h1).symm
    subst e
    refine ⟨b, (h.shows_ g r' b h3 h4).view, ?_⟩
    intro w
    set n := (NetWorld.run acts).nets.length with hn
    have hlen := names_len acts
    have hgl : g < (SpecWorld.run acts).vals.length := by
      rw [← not_le]; intro hc; rw [List.getElem?_eq_none hc] at h4; cases h4
    have hb : (SpecWorld.run acts).vals.getD g Bbn.empty = b := by rw [List.getD_eq_getElem?_getD, h4]; rfl
    set s1 := (SpecWorld.run acts).step (.copy k) with hs1
    have e1 : s1 = { vals := (SpecWorld.run acts).vals, names := (SpecWorld.run acts).names ++ [g] } := by
      rw [hs1]; simp only [SpecWorld.step, h2]
    have hkl : k < (SpecWorld.run acts).names.length := by
      rw [← not_le]; intro hc; rw [List.getElem?_eq_none hc] at h2; cases h2
    have n1 : s1.names[k]? = some g := by rw [e1]; simp only; rw [List.getElem?_append_left hkl, h2]
    have n2 : s1.names[n]? = some g := by
      rw [e1]; simp only; rw [hn, hlen]; exact List.getElem?_concat_length
    have hrun : SpecWorld.run (acts ++ NetAct.copy k :: onTwo k n ops) = (onTwo k n ops).foldl SpecWorld.step s1 := by
      unfold SpecWorld.run
      rw [List.foldl_append]
      rfl
    obtain ⟨i1, i2⟩ := onTwo_alias k n g ops s1 n1 n2 (by rw [e1]; exact hgl)
    have v1 : s1.vals.getD g Bbn.empty = b := by rw [e1]; exact hb
    rw [v1] at i2
    have q1 := c85_refines (acts ++ NetAct.copy k :: onTwo k n ops) k
    have q2 := c85_refines (acts ++ NetAct.copy k :: onTwo k n ops) n
    rw [hrun, i1, n1] at q1
    rw [hrun, i1, n2] at q2
    simp only [Option.map_some, i2, Option.map_eq_some_iff] at q1 q2
    obtain ⟨r1, a1, a2⟩ := q1
    obtain ⟨r2, c1, c2⟩ := q2
    exact ⟨r1, r2, a1, c1, a2, c2⟩

/-- a program: build `a → b`, copy it both ways, extend and change the copies and the original -/
def c85_build : List NetAct :=
  [.new, .op 0 (.addNode (.fresh (mkNode 0 "a" [1/4, 3/4]))),
   .op 0 (.addEdge (.own 0) (.fresh (mkNode 1 "b" [1/2, 1/2, 1/4, 3/4])))]

def c85_ops : List (Bool × NetOp) :=
  [(true, .addEdge (.own 1) (.fresh (mkNode 2 "c" [1/5, 4/5, 1/3, 2/3]))), (false, .setProbs 0 [1/9, 8/9]),
   (true, .setProbs 1 [1, 0, 0, 1]), (false, .removeNode 1), (true, .addEdge (.own 0) (.own 7))]

/-- C85 is not vacuous. After the calls `c85_ops` on the original (variable 0) and a copy (variable 1): with a deep copy the
original has lost node 1 and has the new CPT of node 0, the copy has nodes 0, 1, 2 with the old CPT of node 0; with a shallow copy
both show nodes 0 and 2 with the new CPT. -/
example : (NetWorld.run c85_build).nets.length = 1 ∧
    (let w := NetWorld.run (c85_build ++ .deepcopy 0 :: onTwo 0 1 c85_ops);
      w.nets.map (fun r => (w.mem.view r).nodes.map (fun kv => (kv.1, kv.2.probs))) =
        [[(0, [1/9, 8/9])], [(0, [1/4, 3/4]), (1, [1, 0, 0, 1]), (2, [1/5, 4/5, 1/3, 2/3])]] ∧
      w.nets.map (fun r => (w.mem.view r).parents) = [[(1, [0])], [(1, [0]), (2, [1])]]) ∧
    (let w := NetWorld.run (c85_build ++ .copy 0 :: onTwo 0 1 c85_ops);
      w.nets.map (fun r => (w.mem.view r).nodes.map (fun kv => (kv.1, kv.2.probs))) =
        [[(0, [1/9, 8/9]), (2, [1/5, 4/5, 1/3, 2/3])], [(0, [1/9, 8/9]), (2, [1/5, 4/5, 1/3, 2/3])]]) := by
  refine ⟨by decide +kernel, ⟨by decide +kernel, by decide +kernel⟩, by decide +kernel⟩

end PyBBN
