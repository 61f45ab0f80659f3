import Verif.Proofs.Close

/-! # C105: small changes of the CPTs change the reports little -/

namespace PyBBN
open Relation InferenceController

section
variable {it it' : SetIter Int} {js js' : SetIter Str} {ops ops' : List BOp} {jt jt' : JoinTree} {κ : Int → ℚ}

theorem lawHist_same {vars : List Variable} {h h' : List (SetIter Str × EvOp)} (e : h.map Prod.snd = h'.map Prod.snd) : lawHist vars h = lawHist vars h' := by
  have key : ∀ h : List (SetIter Str × EvOp), lawHist vars h = (h.map Prod.snd).foldl (fun s op => op.law vars s) ⟨noEvidence, noEvidence⟩ := by
    intro h; unfold lawHist; rw [List.foldl_map]
  rw [key, key, e]

/-- **C105**. Two networks have the same nodes and parents, and their CPTs agree, entry by entry, up to a factor for each node; `k` is the
product of these factors. After the same evidence calls on join trees of the two, the odds that are reported for any value of any node agree up to
the factor `k²`, and the reported probabilities differ by at most `(k - 1) / (k + 1)`; whatever the evidence is and in whichever order sets
are iterated. -/
theorem c105_close (hu : Net.Usable ops) (hu' : Net.Usable ops') (C : Bbn.Close κ (Bbn.run ops) (Bbn.run ops'))
    (hj : apply it js (Bbn.run ops) = .ok jt) (hj' : apply it' js' (Bbn.run ops') = .ok jt')
    (h h' : List (SetIter Str × EvOp)) (hp : ∀ op ∈ h, op.2.Proper (Bbn.run ops).vars) (hh : h.map Prod.snd = h'.map Prod.snd)
    {v : Variable} (hv : v ∈ (Bbn.run ops).vars) {x : Str} (hx : x ∈ v.values) {k : ℚ} (hk : k = ((Bbn.run ops).vars.map (fun w => κ w.id)).prod) :
    ∃ r r', Reports (runHist jt h) v x r ∧ Reports (runHist jt' h') v x r' ∧
      UpTo (k * k) (r * (1 - r')) (r' * (1 - r)) ∧ |r' - r| ≤ (k - 1) / (k + 1) := by
  have hp' : ∀ op ∈ h', op.2.Proper (Bbn.run ops').vars := by
    intro op ho
    rw [C.vars]
    have : op.2 ∈ h.map Prod.snd := by rw [hh]; exact List.mem_map_of_mem ho
    obtain ⟨o, h1, h2⟩ := List.mem_map.1 this
    rw [← h2]; exact hp o h1
  have hr := reports_law hu hj h hp hv hx
  have hr' := reports_law hu' hj' h' hp' (C.vars ▸ hv) hx
  rw [C.vars, ← lawHist_same hh] at hr'
  obtain ⟨T, l1, _, _⟩ := live_law hu.toSane hj h hp
  exact ⟨_, _, hr, hr', close_posterior (bbn_run_inv ops) hu.wf hu'.wf C l1.calib.likNonneg v.id x hk⟩

end

/-- the network of C16 with the CPTs of `a` and `c` replaced -/
def c105_ops : List BOp :=
  [.addEdge (mkNode 0 "a" [3/10, 7/10]) (mkNode 1 "b" [1/2, 1/2, 1/4, 3/4]),
   .addEdge (mkNode 0 "a" [3/10, 7/10]) (mkNode 2 "c" [11/50, 39/50, 2/5, 3/5]),
   .addEdge (mkNode 2 "c" [11/50, 39/50, 2/5, 3/5]) (mkNode 3 "d" [1/10, 9/10, 1/5, 4/5, 3/10, 7/10, 0, 1]),
   .addEdge (mkNode 1 "b" [1/2, 1/2, 1/4, 3/4]) (mkNode 3 "d" [1/10, 9/10, 1/5, 4/5, 3/10, 7/10, 0, 1]),
   .addEdge (mkNode 3 "d" [1/10, 9/10, 1/5, 4/5, 3/10, 7/10, 0, 1]) (mkNode 4 "e" [1/3, 2/3, 3/4, 1/4])]

/-- by how much they differ -/
def c105_factor : Int → ℚ := fun i => if i = 0 then 6/5 else if i = 2 then 11/10 else 1

/-- the networks satisfy the hypotheses with `k = 33/25` -/
theorem c105_close_ex : Bbn.Close c105_factor (Bbn.run c16_ops) (Bbn.run c105_ops) :=
  ⟨by decide +kernel, by decide +kernel, by decide +kernel, by decide +kernel⟩

theorem c105_usable : Net.Usable c105_ops := by
  refine ⟨⟨wf_of_check (by decide +kernel) (by decide +kernel), by decide +kernel⟩, ?_⟩
  unfold ConnectedOps
  rw [c105_close_ex.vars, show BOp.edges c105_ops = BOp.edges c16_ops by decide +kernel]
  exact c16_connected

/-- what is reported for `c = on` and for `e = on`, without evidence and with the history of C18 -/
def c105_report (ops : List BOp) : Option (List (Option ℚ)) :=
  (apply .same .rev (Bbn.run ops)).val?.map (fun jt => [reportOf jt (c16_node 2) "on".toList, reportOf (runHist jt c18_hist) (c16_node 0) "on".toList])

/-- the reports differ by less than `(k - 1) / (k + 1) = 4/29` -/
example : ((Bbn.run c16_ops).vars.map (fun w => c105_factor w.id)).prod = 33 / 25 ∧ 
    c105_report c16_ops = some [some (7 / 20), some (56 / 155)] ∧ c105_report c105_ops = some [some (173 / 500), some (39 / 94)] ∧
    |(39 / 94 : ℚ) - 56 / 155| ≤ 4 / 29 := by
  refine ⟨by decide +kernel, by decide +kernel, by decide +kernel, ?_⟩
  rw [abs_le]; norm_num

/-- the theorem at these networks -/
example := c105_close c16_usable c105_usable c105_close_ex (c16_jt_ok .same .rev)
  (hj' := ((c16_exact_priors .rev .same c105_ops c105_usable.wf c105_usable.conn).1 (by decide +kernel)).choose_spec.1) c18_hist
  (c18_hist.map (fun o => (.rev, o.2))) c18_hist_proper (by simp) (v := c16_node 0) (by decide +kernel) (x := "on".toList) (by decide +kernel) rfl

/-- two networks with one node each: the bound `(k - 1) / (k + 1)` is reached, here for `k = 2` -/
example : Bbn.Close (fun _ => 2) (Bbn.run [.addNode (mkNode 0 "a" [1/3, 2/3])]) (Bbn.run [.addNode (mkNode 0 "a" [2/3, 1/3])]) ∧
    ([[1/3, 2/3], [2/3, 1/3]].map (fun p => ((apply .same .same (Bbn.run [.addNode (mkNode 0 "a" p)])).val?.bind
      (fun jt => reportOf jt (c16_node 0) "on".toList)))) = [some (1/3), some (2/3)] ∧ (2/3 : ℚ) - 1/3 = (2 - 1) / (2 + 1) :=
  ⟨⟨by decide +kernel, by decide +kernel, by decide +kernel, by decide +kernel⟩, by decide +kernel, by norm_num⟩

end PyBBN
