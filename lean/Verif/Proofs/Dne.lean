import Verif.Model.Dne
import Verif.Spec.Dne
import Verif.Proofs.Sampling

/-! Reading the text written by `to_dne`. -/

namespace PyBBN
namespace Dne

/-- the statements of a node, after the blanks `pre` -/
def stmts (pre name states parents probs : Str) : List Str :=
  [pre ++ ("node ".toList ++ (name ++ (" {".toList ++ "\n                discrete = TRUE".toList))),
   "\n                states = ".toList ++ states,
   "\n                kind = NATURE".toList,
   "\n                chance = CHANCE".toList,
   "\n                parents = ".toList ++ parents,
   "\n                probs = ".toList ++ probs,
   "\n            }".toList]

theorem semi_cons {s : Str} (h : ';' ∉ s) (t : Str) : splitOn ';' (s ++ (";".toList ++ t)) = s :: splitOn ';' t := splitOn_append h t

/-- splitting the text of a node -/
theorem split_node {pre name states parents probs : Str} (h0 : ';' ∉ pre) (h1 : ';' ∉ name) (h2 : ';' ∉ states) (h3 : ';' ∉ parents)
    (h4 : ';' ∉ probs) (t : Str) :
    splitOn ';' (pre ++ nodeText name states parents probs ++ t) = stmts pre name states parents probs ++ splitOn ';' ("\n            ".toList ++ t) := by
  have e : pre ++ nodeText name states parents probs ++ t =
      (pre ++ ("node ".toList ++ (name ++ (" {".toList ++ "\n                discrete = TRUE".toList)))) ++ (";".toList ++
      (("\n                states = ".toList ++ states) ++ (";".toList ++
      ("\n                kind = NATURE".toList ++ (";".toList ++
      ("\n                chance = CHANCE".toList ++ (";".toList ++
      (("\n                parents = ".toList ++ parents) ++ (";".toList ++
      (("\n                probs = ".toList ++ probs) ++ (";".toList ++
      ("\n            }".toList ++ (";".toList ++ ("\n            ".toList ++ t)))))))))))))) := by
    unfold nodeText
    simp only [List.append_assoc]
  rw [e, semi_cons (by simp [h0, h1]), semi_cons (by simp [h2]), semi_cons (by decide), semi_cons (by decide), semi_cons (by simp [h3]),
    semi_cons (by simp [h4]), semi_cons (by decide)]
  rfl

theorem takeWhile_stop {c : Char} : ∀ {s : Str}, c ∉ s → ∀ t, (s ++ c :: t).takeWhile (fun d => decide (d ≠ c)) = s
  | [], _, t => by simp
  | a :: s, h, t => by
      have h1 : a ≠ c := fun e => h (by simp [e])
      have h2 : c ∉ s := fun m => h (List.mem_cons_of_mem _ m)
      rw [List.cons_append, List.takeWhile_cons_of_pos (by simpa using h1), takeWhile_stop h2]

theorem dneItems_join {l : List Str} (h : ∀ s ∈ l, ',' ∉ s) (h1 : l ≠ [[]]) : dneItems (joinStr ",".toList l) = l := by
  unfold dneItems
  by_cases hl : l = []
  · subst hl; simp [joinStr]
  · have hj : joinStr ",".toList l ≠ [] := by
      match l, hl, h1 with
      | [s], _, h1 => simpa [joinStr] using h1
      | s :: t :: l, _, _ => simp [joinStr]
    rw [if_neg hj]
    exact splitOn_join hl h

theorem stmt_node {pre name : Str} (hp : pre.dropWhile isSpace = []) (hn : ' ' ∉ name) (acc : List DneNode) :
    dneStmt acc (pre ++ ("node ".toList ++ (name ++ (" {".toList ++ "\n                discrete = TRUE".toList)))) = ⟨name, [], [], []⟩ :: acc := by
  have hd : (pre ++ ("node ".toList ++ (name ++ (" {".toList ++ "\n                discrete = TRUE".toList)))).dropWhile isSpace =
      "node ".toList ++ (name ++ (" {".toList ++ "\n                discrete = TRUE".toList)) := by
    rw [List.dropWhile_append, hp]
    rfl
  unfold dneStmt
  rw [hd]
  have ha : afterKw "node " ("node ".toList ++ (name ++ (" {".toList ++ "\n                discrete = TRUE".toList))) =
      some (name ++ (" {".toList ++ "\n                discrete = TRUE".toList)) := rfl
  simp only [ha]
  have := takeWhile_stop hn "{\n                discrete = TRUE".toList
  rw [show name ++ (" {".toList ++ "\n                discrete = TRUE".toList) = name ++ ' ' :: "{\n                discrete = TRUE".toList from rfl, this]

theorem stmt_states {l : List Str} (h : ∀ s ∈ l, ',' ∉ s ∧ ')' ∉ s) (h1 : l ≠ [[]]) (n : DneNode) (acc : List DneNode) :
    dneStmt (n :: acc) ("\n                states = ".toList ++ paren l) = { n with states := l } :: acc := by
  have hj : ')' ∉ joinStr ",".toList l := by
    intro hm
    rcases mem_joinStr hm with h' | ⟨s, hs, hc⟩
    · exact absurd h' (by decide)
    · exact (h s hs).2 hc
  have e : dneStmt (n :: acc) ("\n                states = ".toList ++ paren l) =
      { n with states := dneItems ((joinStr ",".toList l ++ ")".toList).takeWhile (fun c => decide (c ≠ ')'))) } :: acc := rfl
  rw [e, show (joinStr ",".toList l ++ ")".toList) = joinStr ",".toList l ++ ')' :: [] from rfl, takeWhile_stop hj,
    dneItems_join (fun s hs => (h s hs).1) h1]

theorem stmt_parents {l : List Str} (h : ∀ s ∈ l, ',' ∉ s ∧ ')' ∉ s) (h1 : l ≠ [[]]) (n : DneNode) (acc : List DneNode) :
    dneStmt (n :: acc) ("\n                parents = ".toList ++ paren l) = { n with parents := l } :: acc := by
  have hj : ')' ∉ joinStr ",".toList l := by
    intro hm
    rcases mem_joinStr hm with h' | ⟨s, hs, hc⟩
    · exact absurd h' (by decide)
    · exact (h s hs).2 hc
  have e : dneStmt (n :: acc) ("\n                parents = ".toList ++ paren l) =
      { n with parents := dneItems ((joinStr ",".toList l ++ ")".toList).takeWhile (fun c => decide (c ≠ ')'))) } :: acc := rfl
  rw [e, show (joinStr ",".toList l ++ ")".toList) = joinStr ",".toList l ++ ')' :: [] from rfl, takeWhile_stop hj,
    dneItems_join (fun s hs => (h s hs).1) h1]

theorem stmt_probs {l : List Str} (h : ∀ s ∈ l, ',' ∉ s ∧ ')' ∉ s) (h1 : l ≠ [[]]) (n : DneNode) (acc : List DneNode) :
    dneStmt (n :: acc) ("\n                probs = ".toList ++ paren l) = { n with probs := l } :: acc := by
  have hj : ')' ∉ joinStr ",".toList l := by
    intro hm
    rcases mem_joinStr hm with h' | ⟨s, hs, hc⟩
    · exact absurd h' (by decide)
    · exact (h s hs).2 hc
  have e : dneStmt (n :: acc) ("\n                probs = ".toList ++ paren l) =
      { n with probs := dneItems ((joinStr ",".toList l ++ ")".toList).takeWhile (fun c => decide (c ≠ ')'))) } :: acc := rfl
  rw [e, show (joinStr ",".toList l ++ ")".toList) = joinStr ",".toList l ++ ')' :: [] from rfl, takeWhile_stop hj,
    dneItems_join (fun s hs => (h s hs).1) h1]

/-- what a node needs to be read back -/
structure Readable (n : DneNode) : Prop where
  name : ' ' ∉ n.name ∧ ';' ∉ n.name
  states : (∀ s ∈ n.states, ',' ∉ s ∧ ')' ∉ s ∧ ';' ∉ s) ∧ n.states ≠ [[]]
  parents : (∀ s ∈ n.parents, ',' ∉ s ∧ ')' ∉ s ∧ ';' ∉ s) ∧ n.parents ≠ [[]]
  probs : (∀ s ∈ n.probs, ',' ∉ s ∧ ')' ∉ s ∧ ';' ∉ s) ∧ n.probs ≠ [[]]

/-- the text of a node -/
def textOf (n : DneNode) : Str := nodeText n.name (paren n.states) (paren n.parents) (paren n.probs)

theorem semi_paren {l : List Str} (h : ∀ s ∈ l, ',' ∉ s ∧ ')' ∉ s ∧ ';' ∉ s) : ';' ∉ paren l := by
  unfold paren
  simp only [List.mem_append, not_or]
  refine ⟨⟨by decide, ?_⟩, by decide⟩
  intro hm
  rcases mem_joinStr hm with h' | ⟨s, hs, hc⟩
  · exact absurd h' (by decide)
  · exact (h s hs).2.2 hc

theorem fold_stmts {pre : Str} (hp : pre.dropWhile isSpace = []) {n : DneNode} (h : Readable n) (acc : List DneNode) :
    (stmts pre n.name (paren n.states) (paren n.parents) (paren n.probs)).foldl dneStmt acc = n :: acc := by
  unfold stmts
  rw [List.foldl_cons, stmt_node hp h.name.1, List.foldl_cons, stmt_states (fun s hs => ⟨(h.states.1 s hs).1, (h.states.1 s hs).2.1⟩) h.states.2,
    List.foldl_cons, show dneStmt (_ :: acc) "\n                kind = NATURE".toList = _ :: acc from rfl,
    List.foldl_cons, show dneStmt (_ :: acc) "\n                chance = CHANCE".toList = _ :: acc from rfl,
    List.foldl_cons, stmt_parents (fun s hs => ⟨(h.parents.1 s hs).1, (h.parents.1 s hs).2.1⟩) h.parents.2,
    List.foldl_cons, stmt_probs (fun s hs => ⟨(h.probs.1 s hs).1, (h.probs.1 s hs).2.1⟩) h.probs.2,
    List.foldl_cons, show dneStmt (_ :: acc) "\n            }".toList = _ :: acc from rfl]
  rfl

/-- reading the nodes and the end of the file -/
theorem read_nodes : ∀ (ns : List DneNode) (pre : Str) (acc : List DneNode), (∀ n ∈ ns, Readable n) → pre.dropWhile isSpace = [] → ';' ∉ pre →
    (splitOn ';' (pre ++ joinStr "\n".toList (ns.map textOf) ++ ("\n        }".toList ++ (";".toList ++ "\n        ".toList)))).foldl dneStmt acc = ns.reverse ++ acc
  | [], pre, acc, _, hp, hs => by
      have e : pre ++ joinStr "\n".toList (([] : List DneNode).map textOf) ++ ("\n        }".toList ++ (";".toList ++ "\n        ".toList)) =
          (pre ++ "\n        }".toList) ++ (";".toList ++ "\n        ".toList) := by simp [joinStr]
      rw [e, semi_cons (by simp [hs]), splitOn_none (by decide)]
      have hd : (pre ++ "\n        }".toList).dropWhile isSpace = "}".toList := by
        rw [List.dropWhile_append, hp]; rfl
      have h1 : ∀ acc, dneStmt acc (pre ++ "\n        }".toList) = acc := by
        intro acc
        unfold dneStmt
        rw [hd]
        cases acc <;> rfl
      have h2 : ∀ acc, dneStmt acc "\n        ".toList = acc := by
        intro acc
        cases acc <;> rfl
      rw [List.foldl_cons, h1, List.foldl_cons, h2]
      rfl
  | [n], pre, acc, hn, hp, hs => by
      have h := hn n (by simp)
      rw [show joinStr "\n".toList ([n].map textOf) = textOf n from rfl]
      unfold textOf
      rw [split_node hs h.name.2 (semi_paren h.states.1) (semi_paren h.parents.1) (semi_paren h.probs.1), List.foldl_append, fold_stmts hp h]
      exact read_nodes [] "\n            ".toList (n :: acc) (by simp) (by decide) (by decide)
  | n :: m :: ns, pre, acc, hn, hp, hs => by
      have h := hn n (by simp)
      have e : pre ++ joinStr "\n".toList ((n :: m :: ns).map textOf) ++ ("\n        }".toList ++ (";".toList ++ "\n        ".toList)) =
          pre ++ textOf n ++ ("\n".toList ++ joinStr "\n".toList ((m :: ns).map textOf) ++ ("\n        }".toList ++ (";".toList ++ "\n        ".toList))) := by
        simp [joinStr]
      rw [e]
      conv_lhs => rw [textOf]
      rw [split_node hs h.name.2 (semi_paren h.states.1) (semi_paren h.parents.1) (semi_paren h.probs.1), List.foldl_append, fold_stmts hp h]
      have := read_nodes (m :: ns) "\n            \n".toList (n :: acc) (fun x hx => hn x (List.mem_cons_of_mem _ hx)) (by decide) (by decide)
      rw [show (n :: m :: ns).reverse ++ acc = (m :: ns).reverse ++ n :: acc by simp, ← this]
      simp only [List.append_assoc]
      rfl

/-- reading the whole file -/
theorem read_net {name : Str} (hname : ';' ∉ name) {ns : List DneNode} (hn : ∀ n ∈ ns, Readable n) :
    readDne (netText name (joinStr "\n".toList (ns.map textOf))) = ns := by
  unfold readDne
  have e : netText name (joinStr "\n".toList (ns.map textOf)) =
      ("// ~->[DNET-1]->~\n        bnet ".toList ++ (name ++ " {\n        AutoCompile = TRUE".toList)) ++ (";".toList ++
      ("\n        autoupdate = TRUE".toList ++ (";".toList ++
      ("\n\n        ".toList ++ joinStr "\n".toList (ns.map textOf) ++ ("\n        }".toList ++ (";".toList ++ "\n        ".toList)))))) := by
    unfold netText
    simp only [List.append_assoc]
  rw [e, semi_cons (by simp [hname]), semi_cons (by decide), List.foldl_cons, List.foldl_cons]
  have h1 : dneStmt [] ("// ~->[DNET-1]->~\n        bnet ".toList ++ (name ++ " {\n        AutoCompile = TRUE".toList)) = [] := rfl
  have h2 : dneStmt [] "\n        autoupdate = TRUE".toList = [] := rfl
  rw [h1, h2, read_nodes ns _ [] hn (by decide) (by decide)]
  simp

end Dne
end PyBBN
