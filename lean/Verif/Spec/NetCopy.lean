import Verif.Model.NetCopy

/-! # What copies of networks should be

A deep copy is a second network; a shallow copy is a second name for the same network. -/

namespace PyBBN

/-- what can be seen of a network (value) -/
def Bbn.view (b : Bbn) : NetView :=
  { nodes := b.nodes
    edges := b.edges.map (fun kv => (kv.1, edgeView kv.2))
    edgeMap := b.edgeMap
    neighbors := b.neighbors
    parents := b.parents }

/-- the node an argument stands for -/
def NodeArg.node (b : Bbn) : NodeArg → Option BbnNode
  | .fresh n => some n
  | .own id => Dict.get? b.nodes id

/-- replace the CPT of a node -/
def Bbn.setProbs (b : Bbn) (id : Int) (ps : List ℚ) : Bbn :=
  { b with nodes := b.nodes.map (fun kv => if kv.1 = id then (kv.1, { kv.2 with probs := ps }) else kv) }

/-- the effect of a call on the network it is made on (none if an argument does not exist) -/
def NetOp.spec (b : Bbn) : NetOp → Bbn
  | .addNode a => match a.node b with
      | some x => b.addNode x
      | none => b
  | .addEdge a c => match a.node b, c.node b with
      | some x, some y => b.addEdge ⟨x, y, .directed⟩
      | _, _ => b
  | .removeNode id => b.removeNode id
  | .setProbs id ps => b.setProbs id ps

/-- networks (values), and which of them each variable of the program names -/
structure SpecWorld where
  vals : List Bbn := []
  names : List Nat := []

def SpecWorld.step (w : SpecWorld) : NetAct → SpecWorld
  | .new => { vals := w.vals ++ [Bbn.empty], names := w.names ++ [w.vals.length] }
  | .copy k => match w.names[k]? with
      | some g => { w with names := w.names ++ [g] }
      | none => w
  | .deepcopy k => match w.names[k]? with
      | some g => { vals := w.vals ++ [w.vals.getD g Bbn.empty], names := w.names ++ [w.vals.length] }
      | none => w
  | .op k o => match w.names[k]? with
      | some g => { w with vals := w.vals.set g (o.spec (w.vals.getD g Bbn.empty)) }
      | none => w

def SpecWorld.run (acts : List NetAct) : SpecWorld := acts.foldl SpecWorld.step {}

end PyBBN
