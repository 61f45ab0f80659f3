import Verif.Proofs.History

/-! Histories of evidence operations. -/

namespace PyBBN
open Evidence

theorem foldl_set_keys : ∀ (l : List (Str × ℚ)) (d : Dict Str ℚ), (Dict.keys d).Nodup →
    (Dict.keys (l.foldl (fun d kv => Dict.set d kv.1 kv.2) d)).Nodup ∧
    ∀ k, k ∈ Dict.keys (l.foldl (fun d kv => Dict.set d kv.1 kv.2) d) ↔ k ∈ Dict.keys d ∨ k ∈ l.map Prod.fst
  | [], d, h => ⟨h, fun k => by simp⟩
  | (k, v) :: l, d, h => by
      obtain ⟨h1, h2⟩ := foldl_set_keys l (Dict.set d k v) (Dict.nodup_keys_set h k v)
      rw [List.foldl_cons]
      refine ⟨h1, ?_⟩
      intro k'
      rw [h2, Dict.mem_keys_set, List.map_cons, List.mem_cons]
      tauto

section
variable {vars : List Variable}

theorem unobserved_proper {v : Variable} (hv : v ∈ vars) : (JoinTree.unobservedEvidence v).Proper vars := by
  obtain ⟨h1, h2⟩ := foldl_set_keys (v.values.map (fun x => (x, (1 : ℚ)))) [] (by simp [Dict.keys])
  refine ⟨hv, h1, ?_⟩
  intro k hk
  have := (h2 k).1 hk
  simp [Dict.keys] at this
  exact this

theorem unobserved_canon (v : Variable) (x : Str) : (JoinTree.unobservedEvidence v).canon x = 1 := rfl

theorem ones_unambiguous (ds : List Str) {c : Str → ℚ} (hc : ∀ x ∈ ds, c x = 1) : Unambiguous ds c := by
  intro a _ _ h b hb hba
  exact absurd (hc b hb) (h b hb hba)

/-- the evidence machine on all operations; `nodes` is the order in which `unobserve_all` lists the nodes -/
def evOp (nodes : List Variable) (s : EvState) : EvOp → EvState × Option PyErr
  | .update es => evUpdate s es
  | .observe e =>
      match Dict.get? s.ev e.node.id with
      | none => (s, some .keyError)
      | some stored =>
          let pvalues := (stored.filter (fun kv => decide (kv.2 = 1))).map Prod.fst
          if pvalues.length = 1 then
            match e.givenOnes.head? with
            | none => (s, some .indexError)
            | some curr =>
                if pvalues.head? = some curr then evUpdate s [JoinTree.unobservedEvidence e.node]
                else evUpdate s [e]
          else evUpdate s [e]
  | .unobserve ns => evUpdate s (ns.map JoinTree.unobservedEvidence)
  | .unobserveAll => evUpdate s (nodes.map JoinTree.unobservedEvidence)

theorem unobserved_nodes {ns : List Variable} (h : ∀ v ∈ ns, NodeOk vars v) :
    ∀ e ∈ ns.map JoinTree.unobservedEvidence, NodeOk vars e.node ∧ (Dict.keys e.values).Nodup := by
  intro e he
  obtain ⟨v, hv, rfl⟩ := List.mem_map.1 he
  exact ⟨h v hv, (foldl_set_keys (v.values.map (fun x => (x, (1 : ℚ)))) [] (by simp [Dict.keys])).1⟩

variable {cs : List Clique} {T : List SepSet} {N : Net}

theorem Live.doms {ℓ : Liks} {jt : JoinTree} (h : Live vars cs T N ℓ jt) (hvne : ∀ v ∈ vars, v.values ≠ []) : DomsOk vars :=
  ⟨h.calib.ctx.vn, h.calib.ctx.vals, hvne⟩

/-- an operation on a live join tree behaves as the evidence machine says -/
theorem Live.step (hN : NetOk vars N) (hne : cs ≠ []) (hvne : ∀ v ∈ vars, v.values ≠ []) {ℓ : Liks} {jt : JoinTree}
    (h : Live vars cs T N ℓ jt) (js : SetIter Str) (op : EvOp) (hop : op.Nodes vars) :
    ∃ jt', op.run js jt = (jt', (evOp jt.getBbnNodes ⟨jt.evidences, ℓ⟩ op).2) ∧
      Live vars cs T N (evOp jt.getBbnNodes ⟨jt.evidences, ℓ⟩ op).1.prop jt' ∧
      EvEq jt'.evidences (evOp jt.getBbnNodes ⟨jt.evidences, ℓ⟩ op).1.ev ∧ SameTree jt' jt := by
  cases op with
  | update es => exact h.update hN hne hvne js es hop
  | unobserve ns => exact h.update hN hne hvne js _ (unobserved_nodes hop)
  | unobserveAll =>
    refine h.update hN hne hvne js _ (unobserved_nodes ?_)
    intro v hv
    have hv' := h.calib.ctx.bbnNodes_perm.mem_iff.1 hv
    exact ⟨fun _ => hv', h.calib.ctx.vals v hv'⟩
  | observe e =>
    replace hop : NodeOk vars e.node ∧ (Dict.keys e.values).Nodup := hop
    have h1 := h.update hN hne hvne js [e] (by simpa using hop)
    have h2 := h.update hN hne hvne js ([e.node].map JoinTree.unobservedEvidence) (unobserved_nodes (by simpa using hop.1))
    change ∃ jt', jt.setObservation js e = _ ∧ _
    unfold JoinTree.setObservation evOp
    simp only
    cases hm : Dict.get? jt.evidences e.node.id with
    | none => exact ⟨jt, rfl, h, EvEq.refl _, SameTree.refl _⟩
    | some m =>
      simp only
      by_cases hl : ((m.filter (fun kv => decide (kv.2 = 1))).map Prod.fst).length = 1
      · rw [if_pos hl, if_pos hl]
        have hg : (e.values.filter (fun kv => decide (kv.2 = 1))).map Prod.fst = e.givenOnes := rfl
        rw [hg]
        cases hc : e.givenOnes.head? with
        | none => exact ⟨jt, rfl, h, EvEq.refl _, SameTree.refl _⟩
        | some x =>
          simp only
          split
          · exact h2
          · exact h1
      · rw [if_neg hl, if_neg hl]
        exact h1

/-- the machine does not depend on the order in which nodes are listed -/
theorem evOp_congr (hd : DomsOk vars) {s t : EvState} (hg : EvGood vars s.ev) (h : EvSame s t) {ns ns' : List Variable}
    (hp : ns.Perm vars) (hp' : ns'.Perm vars) (op : EvOp) :
    EvSame (evOp ns s op).1 (evOp ns' t op).1 ∧ (evOp ns s op).2 = (evOp ns' t op).2 := by
  cases op with
  | update es => exact evUpdate_congr h es
  | unobserve ns => exact evUpdate_congr h _
  | observe e =>
    unfold evOp
    simp only
    rw [h.1]
    cases Dict.get? t.ev e.node.id with
    | none => exact ⟨h, rfl⟩
    | some m =>
      simp only
      split
      · cases e.givenOnes.head? with
        | none => exact ⟨h, rfl⟩
        | some x =>
          simp only
          split
          · exact evUpdate_congr h _
          · exact evUpdate_congr h _
      · exact evUpdate_congr h _
  | unobserveAll =>
    change EvSame (evUpdate s (ns.map JoinTree.unobservedEvidence)).1 (evUpdate t (ns'.map JoinTree.unobservedEvidence)).1 ∧
      (evUpdate s (ns.map JoinTree.unobservedEvidence)).2 = (evUpdate t (ns'.map JoinTree.unobservedEvidence)).2
    obtain ⟨c1, c2⟩ := evUpdate_congr h (ns'.map JoinTree.unobservedEvidence)
    rw [← c2]
    suffices EvSame (evUpdate s (ns.map JoinTree.unobservedEvidence)).1 (evUpdate s (ns'.map JoinTree.unobservedEvidence)).1 ∧
        (evUpdate s (ns.map JoinTree.unobservedEvidence)).2 = (evUpdate s (ns'.map JoinTree.unobservedEvidence)).2 from
      ⟨⟨this.1.1.trans c1.1, this.1.2.trans c1.2⟩, this.2⟩
    have hpr : ∀ {ns : List Variable}, ns.Perm vars → ∀ e ∈ ns.map JoinTree.unobservedEvidence, e.Proper vars := by
      intro ns hp e he
      obtain ⟨v, hv, rfl⟩ := List.mem_map.1 he
      exact unobserved_proper (hp.mem_iff.1 hv)
    obtain ⟨a1, a2, a3, a4, a5⟩ := evUpdate_proper hd hg _ (hpr hp)
    obtain ⟨b1, b2, b3, b4, b5⟩ := evUpdate_proper hd hg _ (hpr hp')
    have hall : ∀ {ns : List Variable} {ℓ : Liks} (v : Variable) (x : Str), ns.Perm vars → v ∈ vars → x ∈ v.values →
        ((ns.map JoinTree.unobservedEvidence).foldl (fun (ℓ : Liks) (e : Evidence) => ℓ.put e.node e.canon) ℓ) v.id x = 1 := by
      intro ns ℓ v x hp hv hx
      have hv' := hp.mem_iff.2 hv
      clear hp
      induction ns generalizing ℓ with
      | nil => simp at hv'
      | cons u ns ih =>
        rw [List.map_cons, List.foldl_cons]
        by_cases hin : v ∈ ns
        · exact ih hin
        · have : v = u := by
            rcases List.mem_cons.1 hv' with h | h
            · exact h
            · exact absurd h hin
          subst this
          have key : ∀ (ns : List Variable) (ℓ : Liks), ℓ v.id x = 1 →
              ((ns.map JoinTree.unobservedEvidence).foldl (fun (ℓ : Liks) (e : Evidence) => ℓ.put e.node e.canon) ℓ) v.id x = 1 := by
            intro ns
            induction ns with
            | nil => intro ℓ h; exact h
            | cons w ns ih2 =>
              intro ℓ h
              rw [List.map_cons, List.foldl_cons]
              apply ih2
              unfold Liks.put
              split
              · rfl
              · exact h
          apply key
          unfold Liks.put
          rw [if_pos ⟨rfl, hx⟩]
          rfl
    have hev : EvEq (evUpdate s (ns.map JoinTree.unobservedEvidence)).1.ev (evUpdate s (ns'.map JoinTree.unobservedEvidence)).1.ev := by
      refine a2.eq_of_lik b2 hd ?_
      intro v hv x hx
      rw [a3, b3, hall v x hp hv hx, hall v x hp' hv hx]
    refine ⟨⟨hev, ?_⟩, by rw [a1, b1]⟩
    have hiff : (∀ e ∈ ns.map JoinTree.unobservedEvidence, Unseen (lik s.ev) e) ↔
        (∀ e ∈ ns'.map JoinTree.unobservedEvidence, Unseen (lik s.ev) e) := by
      constructor
      · intro h e he
        obtain ⟨v, hv, rfl⟩ := List.mem_map.1 he
        exact h _ (List.mem_map_of_mem (hp.mem_iff.2 (hp'.mem_iff.1 hv)))
      · intro h e he
        obtain ⟨v, hv, rfl⟩ := List.mem_map.1 he
        exact h _ (List.mem_map_of_mem (hp'.mem_iff.2 (hp.mem_iff.1 hv)))
    by_cases hu : ∀ e ∈ ns.map JoinTree.unobservedEvidence, Unseen (lik s.ev) e
    · rw [a4 hu, b4 (hiff.1 hu)]
    · rw [a5 hu, b5 (fun h => hu (hiff.2 h)), hev.lik]

/-- the machine on a history -/
def evHist (vars : List Variable) (s : EvState) (h : List (SetIter Str × EvOp)) : EvState :=
  h.foldl (fun s op => (evOp vars s op.2).1) s

theorem Live.hist (hN : NetOk vars N) (hne : cs ≠ []) (hvne : ∀ v ∈ vars, v.values ≠ []) : ∀ (hist : List (SetIter Str × EvOp))
    {s : EvState} {jt : JoinTree}, Live vars cs T N s.prop jt → EvEq jt.evidences s.ev → (∀ op ∈ hist, op.2.Nodes vars) →
    Live vars cs T N (evHist vars s hist).prop (runHist jt hist) ∧ EvEq (runHist jt hist).evidences (evHist vars s hist).ev ∧
      SameTree (runHist jt hist) jt
  | [], s, jt, h, he, _ => ⟨h, he, SameTree.refl _⟩
  | op :: hist, s, jt, h, he, hops => by
      obtain ⟨jt', h1, h2, h3, h4⟩ := h.step hN hne hvne op.1 op.2 (hops op List.mem_cons_self)
      obtain ⟨⟨c1, c2⟩, c3⟩ := evOp_congr (h.doms hvne) (s := ⟨jt.evidences, s.prop⟩) (t := s) h.good ⟨he, rfl⟩ h.calib.ctx.bbnNodes_perm
        (List.Perm.refl vars) op.2
      rw [c2] at h2
      obtain ⟨a, b, c⟩ := Live.hist hN hne hvne hist h2 (h3.trans c1) (fun o ho => hops o (List.mem_cons_of_mem _ ho))
      have e : runHist jt (op :: hist) = runHist jt' hist := by
        unfold runHist
        rw [List.foldl_cons, h1]
      rw [e]
      exact ⟨a, b, c.trans h4⟩

/-- the exception of an operation after a history -/
theorem Live.hist_err (hN : NetOk vars N) (hne : cs ≠ []) (hvne : ∀ v ∈ vars, v.values ≠ []) {s : EvState} {jt : JoinTree}
    (h : Live vars cs T N s.prop jt) (he : EvEq jt.evidences s.ev) (js : SetIter Str) (op : EvOp) (hop : op.Nodes vars) :
    (op.run js jt).2 = (evOp vars s op).2 := by
  obtain ⟨jt', h1, _⟩ := h.step hN hne hvne js op hop
  obtain ⟨_, c3⟩ := evOp_congr (h.doms hvne) (s := ⟨jt.evidences, s.prop⟩) (t := s) h.good ⟨he, rfl⟩ h.calib.ctx.bbnNodes_perm
    (List.Perm.refl vars) op
  rw [h1, ← c3]

/-! ### proper evidence -/

theorem EvOp.Ok.proper {op : EvOp} (h : op.Ok vars) : op.Proper vars := by
  cases op with
  | update es => exact fun e he => (h e he).1
  | observe e => exact h.1
  | unobserve ns => exact h
  | unobserveAll => exact trivial

theorem EvOp.Proper.nodes {op : EvOp} (h : op.Proper vars) (hd : DomsOk vars) : op.Nodes vars := by
  cases op with
  | update es => exact fun e he => ⟨⟨fun _ => (h e he).node, hd.vals _ (h e he).node⟩, (h e he).keys⟩
  | observe e => exact ⟨⟨fun _ => h.node, hd.vals _ h.node⟩, h.keys⟩
  | unobserve ns => exact fun v hv => ⟨fun _ => h v hv, hd.vals _ (h v hv)⟩
  | unobserveAll => exact trivial

theorem unobserved_fold (ns : List Variable) (ℓ : Liks) :
    (ns.map JoinTree.unobservedEvidence).foldl (fun (ℓ : Liks) (e : Evidence) => ℓ.put e.node e.canon) ℓ =
      ns.foldl (fun (ℓ : Liks) v => ℓ.put v (fun _ => 1)) ℓ := by
  rw [List.foldl_map]
  rfl

theorem EvOp.spec_pieces (vars : List Variable) (ℓ : Liks) (op : EvOp) :
    op.spec vars ℓ = (op.pieces vars ℓ).foldl (fun (ℓ : Liks) (e : Evidence) => ℓ.put e.node e.canon) ℓ := by
  cases op with
  | update es => rfl
  | unobserve ns => exact (unobserved_fold ns ℓ).symm
  | unobserveAll => exact (unobserved_fold vars ℓ).symm
  | observe e =>
    unfold EvOp.spec EvOp.pieces
    simp only
    split
    · cases e.givenOnes.head? with
      | none => rfl
      | some x =>
        simp only
        split <;> rfl
    · rfl

theorem EvOp.Proper.pieces {op : EvOp} (h : op.Proper vars) (ℓ : Liks) : ∀ e ∈ op.pieces vars ℓ, e.Proper vars := by
  cases op with
  | update es => exact h
  | unobserve ns =>
    intro e he
    obtain ⟨v, hv, rfl⟩ := List.mem_map.1 he
    exact unobserved_proper (h v hv)
  | unobserveAll =>
    intro e he
    obtain ⟨v, hv, rfl⟩ := List.mem_map.1 he
    exact unobserved_proper hv
  | observe e0 =>
    intro e he
    unfold EvOp.pieces at he
    simp only at he
    split at he
    · cases hh : e0.givenOnes.head? with
      | none => rw [hh] at he; simp at he
      | some x =>
        rw [hh] at he
        simp only at he
        split at he
        · simp at he; subst he; exact unobserved_proper h.node
        · simp at he; subst he; exact h
    · simp at he; subst he; exact h

theorem EvOp.Ok.pieces {op : EvOp} (h : op.Ok vars) (ℓ : Liks) : ∀ e ∈ op.pieces vars ℓ, Unambiguous e.node.values e.canon := by
  have hun : ∀ v : Variable, Unambiguous (JoinTree.unobservedEvidence v).node.values (JoinTree.unobservedEvidence v).canon :=
    fun v => ones_unambiguous _ (fun x _ => unobserved_canon v x)
  cases op with
  | update es => exact fun e he => (h e he).2
  | unobserve ns =>
    intro e he
    obtain ⟨v, hv, rfl⟩ := List.mem_map.1 he
    exact hun v
  | unobserveAll =>
    intro e he
    obtain ⟨v, hv, rfl⟩ := List.mem_map.1 he
    exact hun v
  | observe e0 =>
    intro e he
    unfold EvOp.pieces at he
    simp only at he
    split at he
    · cases hh : e0.givenOnes.head? with
      | none => rw [hh] at he; simp at he
      | some x =>
        rw [hh] at he
        simp only at he
        split at he
        · simp at he; subst he; exact hun _
        · simp at he; subst he; exact h.2
    · simp at he; subst he; exact h.2

/-- the machine on a proper operation is an update with its pieces -/
theorem evOp_pieces (hd : DomsOk vars) {s : EvState} (hg : EvGood vars s.ev) {op : EvOp} (hp : op.Proper vars) :
    EvSame (evOp vars s op).1 (evUpdate s (op.pieces vars (lik s.ev))).1 ∧ (evOp vars s op).2 = op.err (lik s.ev) := by
  have hup := evUpdate_proper hd hg _ (hp.pieces (lik s.ev))
  cases op with
  | update es => exact ⟨⟨EvEq.refl _, rfl⟩, hup.1⟩
  | unobserve ns => exact ⟨⟨EvEq.refl _, rfl⟩, hup.1⟩
  | unobserveAll => exact ⟨⟨EvEq.refl _, rfl⟩, hup.1⟩
  | observe e =>
    have hm := (hg.get hd hp.node).1
    unfold evOp EvOp.err
    unfold EvOp.pieces at hup ⊢
    simp only [hm, ones_map] at hup ⊢
    by_cases hl : (onesOf e.node.values (lik s.ev e.node.id)).length = 1
    · simp only [if_pos hl] at hup ⊢
      cases hh : e.givenOnes.head? with
      | none =>
        have hnil : e.givenOnes = [] := List.head?_eq_none_iff.1 hh
        simp only [hnil]
        refine ⟨⟨EvEq.refl _, ?_⟩, by simp [hl]⟩
        unfold evUpdate JoinTree.getChangeType JoinTree.writeEvidences
        simp [pure, Except.pure, bind, Except.bind]
      | some x =>
        simp only [hh] at hup ⊢
        obtain ⟨a, ha⟩ := List.length_eq_one_iff.1 hl
        have hne : e.givenOnes ≠ [] := by intro h; rw [h] at hh; cases hh
        rw [ha] at hup ⊢
        simp only [List.head?_cons, Option.some.injEq, List.cons.injEq, and_true] at hup ⊢
        by_cases hax : a = x
        · simp only [if_pos hax] at hup ⊢
          refine ⟨⟨EvEq.refl _, rfl⟩, ?_⟩
          rw [hup.1, if_neg (fun h => hne h.2)]
        · simp only [if_neg hax] at hup ⊢
          refine ⟨⟨EvEq.refl _, rfl⟩, ?_⟩
          rw [hup.1, if_neg (fun h => hne h.2)]
    · simp only [if_neg hl] at hup ⊢
      refine ⟨⟨EvEq.refl _, rfl⟩, ?_⟩
      rw [hup.1, if_neg (fun h => hl h.1)]

/-! ### the law of histories -/

theorem evOp_law (hd : DomsOk vars) {s : EvState} (hg : EvGood vars s.ev) {op : EvOp} (hp : op.Proper vars) :
    EvGood vars (evOp vars s op).1.ev ∧ lik (evOp vars s op).1.ev = (op.law vars ⟨lik s.ev, s.prop⟩).stored ∧
      (evOp vars s op).1.prop = (op.law vars ⟨lik s.ev, s.prop⟩).prop := by
  obtain ⟨⟨h1, h2⟩, _⟩ := evOp_pieces hd hg hp
  obtain ⟨_, a2, a3, a4, a5⟩ := evUpdate_proper hd hg _ (hp.pieces (lik s.ev))
  refine ⟨a2.congr h1.symm, ?_, ?_⟩
  · rw [h1.lik, a3]
    unfold EvOp.law
    exact (EvOp.spec_pieces vars (lik s.ev) op).symm
  · rw [h2]
    unfold EvOp.law
    simp only
    split
    · rename_i hu; exact a4 hu
    · rename_i hu; rw [a5 hu, a3]; exact (EvOp.spec_pieces vars (lik s.ev) op).symm

theorem evHist_law (hd : DomsOk vars) : ∀ (h : List (SetIter Str × EvOp)) {s : EvState} {l : Law}, EvGood vars s.ev →
    lik s.ev = l.stored → s.prop = l.prop → (∀ op ∈ h, op.2.Proper vars) →
    EvGood vars (evHist vars s h).ev ∧ lik (evHist vars s h).ev = (h.foldl (fun s op => op.2.law vars s) l).stored ∧
      (evHist vars s h).prop = (h.foldl (fun s op => op.2.law vars s) l).prop
  | [], s, l, hg, h1, h2, _ => ⟨hg, h1, h2⟩
  | op :: h, s, l, hg, h1, h2, hp => by
      obtain ⟨b1, b2, b3⟩ := evOp_law hd hg (hp op List.mem_cons_self)
      have e : (⟨lik s.ev, s.prop⟩ : Law) = l := by rw [h1, h2]
      rw [e] at b2 b3
      exact evHist_law hd h b1 b2 b3 (fun o ho => hp o (List.mem_cons_of_mem _ ho))

theorem lawHist_stored (vars : List Variable) (h : List (SetIter Str × EvOp)) : (lawHist vars h).stored = specHist vars h := by
  unfold lawHist specHist
  have : ∀ (h : List (SetIter Str × EvOp)) (l : Law), (h.foldl (fun s op => op.2.law vars s) l).stored =
      h.foldl (fun ℓ op => op.2.spec vars ℓ) l.stored := by
    intro h
    induction h with
    | nil => intro l; rfl
    | cons op h ih => intro l; rw [List.foldl_cons, List.foldl_cons, ih]; rfl
  exact this h _

/-- with unambiguous evidence the tables always follow -/
theorem lawHist_ok (hd : DomsOk vars) (h : List (SetIter Str × EvOp)) (hok : ∀ op ∈ h, op.2.Ok vars) :
    (lawHist vars h).prop = specHist vars h ∧ ∀ v ∈ vars, Unambiguous v.values (specHist vars h v.id) := by
  have : ∀ (h : List (SetIter Str × EvOp)) (l : Law), (∀ op ∈ h, op.2.Ok vars) → l.prop = l.stored →
      (∀ v ∈ vars, Unambiguous v.values (l.stored v.id)) →
      (h.foldl (fun s op => op.2.law vars s) l).prop = (h.foldl (fun s op => op.2.law vars s) l).stored ∧
      ∀ v ∈ vars, Unambiguous v.values ((h.foldl (fun s op => op.2.law vars s) l).stored v.id) := by
    intro h
    induction h with
    | nil => intro l _ h1 h2; exact ⟨h1, h2⟩
    | cons op h ih =>
      intro l hok h1 h2
      rw [List.foldl_cons]
      have hop := hok op List.mem_cons_self
      refine ih _ (fun o ho => hok o (List.mem_cons_of_mem _ ho)) ?_ ?_
      · unfold EvOp.law
        simp only
        split
        · rename_i hu
          rw [h1, EvOp.spec_pieces, foldl_put_same]
          intro e he
          exact compare_unambiguous (hop.pieces _ e he) (h2 _ (hop.proper.pieces _ e he).node) (hu e he)
        · rfl
      · unfold EvOp.law
        simp only
        rw [EvOp.spec_pieces]
        exact unambiguous_fold hd _ h2 (fun e he => ⟨hop.proper.pieces _ e he, hop.pieces _ e he⟩)
  have h2 := this h ⟨noEvidence, noEvidence⟩ hok rfl (fun v _ => ones_unambiguous _ (fun x _ => rfl))
  have h3 := lawHist_stored vars h
  unfold lawHist at h3 ⊢
  rw [h3] at h2
  exact h2

end

end PyBBN
