import Verif.Proofs.RoundCount
import Verif.Proofs.WalkArith

/-! # Bounds on rounding counts: one propagation -/

namespace PyBBN
open Propagator

/-! ### the bounds along the messages -/

/-- the bounds after messages towards the start -/
def upB (κ : ℚ) (R : ℕ) (L : List Msg) (β : Str → ℚ) : Str → ℚ := L.foldl (fun β e => msgB κ R e.c e.s e.p β) β

/-- the bounds after messages away from the start -/
def downB (κ : ℚ) (R : ℕ) (L : List Msg) (β : Str → ℚ) : Str → ℚ := L.foldl (fun β e => msgB κ R e.p e.s e.c β) β

theorem msgB_nonneg {κ : ℚ} {R : ℕ} (hκ : 0 ≤ κ) {x s y : Str} {β : Str → ℚ} (hβ : ∀ k, 0 ≤ β k) : ∀ k, 0 ≤ msgB κ R x s y β k := by
  intro k
  have hk : 0 ≤ κ * R := mul_nonneg hκ (Nat.cast_nonneg _)
  unfold msgB
  by_cases h1 : k = y
  · rw [h1, Function.update_self]
    linarith [hβ x, hβ s, hβ y]
  · rw [Function.update_of_ne h1]
    by_cases h2 : k = s
    · rw [h2, Function.update_self]
      linarith [hβ x]
    · rw [Function.update_of_ne h2]
      exact hβ k

theorem sum_update {l : List Str} (hn : l.Nodup) {p : Str} (hp : p ∈ l) (f : Str → ℚ) (v : ℚ) :
    (l.map (Function.update f p v)).sum = (l.map f).sum - f p + v := by
  induction l with
  | nil => simp at hp
  | cons a l ih =>
    rw [List.nodup_cons] at hn
    rw [List.map_cons, List.sum_cons, List.map_cons, List.sum_cons]
    by_cases ha : a = p
    · subst ha
      rw [Function.update_self]
      have : l.map (Function.update f a v) = l.map f := by
        apply List.map_congr_left
        intro x hx
        rw [Function.update_of_ne]
        rintro rfl
        exact hn.1 hx
      rw [this]
      ring
    · rw [Function.update_of_ne ha, ih hn.2 ((List.mem_cons.1 hp).resolve_left (fun e => ha e.symm))]
      ring

theorem sum_nonneg_mem {l : List Str} {f : Str → ℚ} (hf : ∀ k, 0 ≤ f k) {k : Str} (hk : k ∈ l) : f k ≤ (l.map f).sum := by
  refine List.single_le_sum ?_ _ (List.mem_map_of_mem hk)
  intro x hx
  obtain ⟨y, _, rfl⟩ := List.mem_map.1 hx
  exact hf y

/-- towards the start, every clique sends what it has collected once -/
theorem upB_bound {κ : ℚ} {R : ℕ} (hκ : 0 ≤ κ) (root : Str) : ∀ (L : List Msg) (β : Str → ℚ), (∀ k, 0 ≤ β k) → AttO [root] L → (nds root L).Nodup →
    (L.map Msg.s).Nodup → (∀ e ∈ L, e.s ∉ nds root L) → (∀ e ∈ L, β e.s = 0) →
    (∀ k, 0 ≤ upB κ R L β k) ∧
    (∀ k, k ∈ nds root L ∨ k ∈ L.map Msg.s → upB κ R L β k ≤ ((nds root L).map β).sum + L.length * (κ * R + 2)) ∧
    (∀ k, k ∉ nds root L → k ∉ L.map Msg.s → upB κ R L β k = β k)
  | [], β, hβ, _, _, _, _, _ => by
      refine ⟨hβ, ?_, fun k _ _ => rfl⟩
      intro k hk
      rcases hk with hk | hk
      · have := sum_nonneg_mem hβ hk
        simpa [upB] using this
      · simp at hk
  | e :: L, β, hβ, hO, hN, hs, hd, h0 => by
      have hk0 : 0 ≤ κ * R := mul_nonneg hκ (Nat.cast_nonneg _)
      have hN' : (nds root L).Nodup ∧ e.c ∉ nds root L := by
        simp only [nds, List.map_cons, List.nodup_cons, List.mem_cons, not_or] at hN ⊢
        exact ⟨⟨hN.1.2, hN.2.2⟩, fun e => hN.1.1 e.symm, hN.2.1⟩
      have hp : e.p ∈ nds root L := by
        rcases hO.1 with h1 | h1
        · simp only [List.mem_cons, List.not_mem_nil, or_false] at h1
          rw [h1]; exact List.mem_cons_self
        · exact List.mem_cons_of_mem _ h1
      have hsubset : ∀ k ∈ nds root L, k ∈ nds root (e :: L) := by
        intro k hk
        simp only [nds, List.map_cons, List.mem_cons] at hk ⊢
        tauto
      have hcm : e.c ∈ nds root (e :: L) := by simp [nds]
      rw [List.map_cons, List.nodup_cons] at hs
      have hes : e.s ∉ nds root L := fun h => hd e List.mem_cons_self (hsubset _ h)
      have hcp : e.c ≠ e.p := fun h => hN'.2 (h ▸ hp)
      have hcs : e.c ≠ e.s := fun h => hd e List.mem_cons_self (h ▸ hcm)
      have hsp : e.s ≠ e.p := fun h => hes (h ▸ hp)
      have hs0 := h0 e List.mem_cons_self
      have hsum : ((nds root (e :: L)).map β).sum = ((nds root L).map β).sum + β e.c := by
        simp only [nds, List.map_cons, List.sum_cons]
        ring
      have hsum1 : ((nds root L).map (msgB κ R e.c e.s e.p β)).sum = ((nds root (e :: L)).map β).sum + (κ * R + 2) := by
        unfold msgB
        rw [sum_update hN'.1 hp, Function.update_of_ne hsp.symm, hsum]
        have : (nds root L).map (Function.update β e.s (β e.c + κ * R)) = (nds root L).map β := by
          apply List.map_congr_left
          intro x hx
          rw [Function.update_of_ne]
          rintro rfl
          exact hes hx
        rw [this, hs0]
        ring
      obtain ⟨i1, i2, i3⟩ := upB_bound hκ root L (msgB κ R e.c e.s e.p β) (msgB_nonneg hκ hβ) hO.2 hN'.1 hs.2
        (fun e' he' h => hd e' (List.mem_cons_of_mem _ he') (hsubset _ h)) (by
          intro e' he'
          unfold msgB
          rw [Function.update_of_ne, Function.update_of_ne]
          · exact h0 e' (List.mem_cons_of_mem _ he')
          · rintro h
            exact hs.1 (h ▸ List.mem_map_of_mem he')
          · intro h
            exact hd e' (List.mem_cons_of_mem _ he') (hsubset _ (h ▸ hp)))
      have hstep : upB κ R (e :: L) β = upB κ R L (msgB κ R e.c e.s e.p β) := rfl
      rw [hstep]
      have hS := sum_nonneg_mem hβ hcm
      have hlen : (0 : ℚ) ≤ (L.length : ℚ) * (κ * R + 2) := mul_nonneg (Nat.cast_nonneg _) (by linarith)
      refine ⟨i1, ?_, ?_⟩
      · intro k hk
        rw [hsum1] at i2
        have e1 : (((e :: L).length : ℕ) : ℚ) * (κ * R + 2) = (L.length : ℚ) * (κ * R + 2) + (κ * R + 2) := by
          rw [List.length_cons]; push_cast; ring
        rw [e1]
        by_cases hin : k ∈ nds root L ∨ k ∈ L.map Msg.s
        · have := i2 k hin
          linarith
        · rw [not_or] at hin
          rw [i3 k hin.1 hin.2]
          have hk' : k = e.c ∨ k = e.s := by
            simp only [nds, List.map_cons, List.mem_cons] at hk hin
            tauto
          unfold msgB
          rcases hk' with rfl | rfl
          · rw [Function.update_of_ne hcp, Function.update_of_ne hcs]
            linarith
          · rw [Function.update_of_ne hsp, Function.update_self]
            linarith
      · intro k h1 h2
        simp only [List.map_cons, List.mem_cons, not_or] at h2
        have h3 : k ∉ nds root L := fun h => h1 (hsubset _ h)
        rw [i3 k h3 h2.2]
        unfold msgB
        rw [Function.update_of_ne (fun h : k = e.p => h3 (h ▸ hp)), Function.update_of_ne h2.1]

/-- away from the start, every clique receives one message -/
theorem downB_bound {κ : ℚ} {R : ℕ} (hκ : 0 ≤ κ) {Φ : ℚ} (hΦ : 0 ≤ Φ) : ∀ (L : List Msg) (β : Str → ℚ) (Y : ℚ), (∀ k, β k ≤ Y) →
    (∀ e ∈ L, β e.c ≤ Φ ∧ β e.s ≤ Φ) → (L.map Msg.c).Nodup → (L.map Msg.s).Nodup → (∀ e ∈ L, ∀ e' ∈ L, e.c ≠ e'.s) →
    ∀ k, downB κ R L β k ≤ Y + L.length * (2 * Φ + κ * R + 2)
  | [], β, Y, hY, _, _, _, _ => by
      intro k
      simpa [downB] using hY k
  | e :: L, β, Y, hY, hL, hc, hs, hd => by
      have hk0 : 0 ≤ κ * R := mul_nonneg hκ (Nat.cast_nonneg _)
      rw [List.map_cons, List.nodup_cons] at hc hs
      obtain ⟨b1, b2⟩ := hL e List.mem_cons_self
      have hd1 := fun e' he' => hd e List.mem_cons_self e' (List.mem_cons_of_mem _ he')
      have ih := downB_bound (R := R) hκ hΦ L (msgB κ R e.p e.s e.c β) (Y + (2 * Φ + κ * R + 2)) (by
        intro k
        unfold msgB
        by_cases h1 : k = e.c
        · rw [h1, Function.update_self]
          linarith [hY e.p]
        · rw [Function.update_of_ne h1]
          by_cases h2 : k = e.s
          · rw [h2, Function.update_self]
            linarith [hY e.p]
          · rw [Function.update_of_ne h2]
            linarith [hY k]) (by
        intro e' he'
        obtain ⟨c1, c2⟩ := hL e' (List.mem_cons_of_mem _ he')
        unfold msgB
        constructor
        · rw [Function.update_of_ne, Function.update_of_ne]
          · exact c1
          · exact hd e' (List.mem_cons_of_mem _ he') e List.mem_cons_self
          · intro h
            exact hc.1 (h ▸ List.mem_map_of_mem he')
        · rw [Function.update_of_ne, Function.update_of_ne]
          · exact c2
          · intro h
            exact hs.1 (h ▸ List.mem_map_of_mem he')
          · exact (hd1 e' he').symm) hc.2 hs.2 (fun e1 h1 e2 h2 => hd e1 (List.mem_cons_of_mem _ h1) e2 (List.mem_cons_of_mem _ h2))
      intro k
      refine (ih k).trans (le_of_eq ?_)
      rw [List.length_cons]
      push_cast
      ring

theorem Att.seps_nodup {V : Str → List Int} {isSep : Str → Prop} {root : Str} : ∀ {L : List Msg}, Att V isSep root L → (L.map Msg.s).Nodup
  | [], _ => by simp
  | m :: L, h => by
      rw [List.map_cons, List.nodup_cons]
      exact ⟨h.2.2.2.2.2.1, Att.seps_nodup h.1⟩

/-! ### the tables along the messages -/

section
variable {A : Arith} {κ : ℚ} {R : ℕ} {vars : List Variable} {cs : List Clique} {T : List SepSet}

theorem Sizes.frame {jt : JoinTree} (h : Sizes R jt) (p : Dict Str Potential) : Sizes R { jt with potentials := p } := ⟨h.rows, h.vars⟩

theorem Cost.passUp (h : Cost A κ) : ∀ (L : List Msg) {jt jt' : JoinTree}, Sizes R jt → A.passUp L jt = .ok jt' → (∀ e ∈ L, OkMsg jt e) →
    ∀ {β : Str → ℚ}, (∀ k, 0 ≤ β k) → Bd R β jt → (∃ p, jt' = { jt with potentials := p }) ∧ Bd R (upB κ R L β) jt'
  | [], jt, jt', _, hp, _, β, _, hb => by
      cases hp
      exact ⟨⟨_, rfl⟩, hb⟩
  | e :: L, jt, jt', hz, hp, hE, β, hβ, hb => by
      unfold Arith.passUp at hp
      rw [List.foldlM_cons] at hp
      obtain ⟨j, h1, hp⟩ := bind_ok hp
      obtain ⟨a1, a2, a3, a4, a5, _, _⟩ := hE e List.mem_cons_self
      obtain ⟨⟨p, rfl⟩, hb1⟩ := h.pass hz h1 hβ a3 a2 a1 a4 hb
      obtain ⟨⟨q, rfl⟩, hb2⟩ := Cost.passUp h L (hz.frame p) hp (fun e' he' => hE e' (List.mem_cons_of_mem _ he')) (msgB_nonneg h.nonneg hβ) hb1
      exact ⟨⟨_, rfl⟩, hb2⟩

theorem Cost.passDown (h : Cost A κ) : ∀ (L : List Msg) {jt jt' : JoinTree}, Sizes R jt → A.passDown L jt = .ok jt' → (∀ e ∈ L, OkMsg jt e) →
    ∀ {β : Str → ℚ}, (∀ k, 0 ≤ β k) → Bd R β jt → (∃ p, jt' = { jt with potentials := p }) ∧ Bd R (downB κ R L β) jt'
  | [], jt, jt', _, hp, _, β, _, hb => by
      cases hp
      exact ⟨⟨_, rfl⟩, hb⟩
  | e :: L, jt, jt', hz, hp, hE, β, hβ, hb => by
      unfold Arith.passDown at hp
      rw [List.foldlM_cons] at hp
      obtain ⟨j, h1, hp⟩ := bind_ok hp
      obtain ⟨a1, a2, a3, a4, a5, _, _⟩ := hE e List.mem_cons_self
      obtain ⟨⟨p, rfl⟩, hb1⟩ := h.pass hz h1 hβ a1 a2 a3 a5 hb
      obtain ⟨⟨q, rfl⟩, hb2⟩ := Cost.passDown h L (hz.frame p) hp (fun e' he' => hE e' (List.mem_cons_of_mem _ he')) (msgB_nonneg h.nonneg hβ) hb1
      exact ⟨⟨_, rfl⟩, hb2⟩

theorem sum_subset_le {l m : List Str} (hl : l.Nodup) (hm : m.Nodup) (hs : ∀ x ∈ l, x ∈ m) {f : Str → ℚ} (hf : ∀ k, 0 ≤ f k) :
    (l.map f).sum ≤ (m.map f).sum := by
  rw [← List.sum_toFinset f hl, ← List.sum_toFinset f hm]
  refine Finset.sum_le_sum_of_subset_of_nonneg ?_ (fun k _ _ => hf k)
  intro x hx
  rw [List.mem_toFinset] at hx ⊢
  exact hs x hx

/-- what one propagation can do to bounds with the given sum over the cliques -/
theorem Cost.propagate (h : Cost A κ) {jt jt' : JoinTree} (hc : Ctx vars cs T jt) (hz : Sizes R jt) (js : SetIter Str)
    (hp : A.propagate js jt = .ok jt') {β : Str → ℚ} (hβ : ∀ k, 0 ≤ β k) (hout : ∀ k, k ∉ cs.map Clique.id → β k = 0) (hb : Bd R β jt)
    {S : ℚ} (hS : ((cs.map Clique.id).map β).sum ≤ S) {M : ℕ} (hM : cs.length ≤ M) :
    (∃ p, jt' = { jt with potentials := p }) ∧
    Bd R (fun _ => (S + M * (κ * R + 2)) + M * (2 * (S + M * (κ * R + 2)) + κ * R + 2)) jt' := by
  have hsp := hc.spec
  have hk0 : 0 ≤ κ * R := mul_nonneg h.nonneg (Nat.cast_nonneg _)
  have hidn : (cs.map Clique.id).Nodup := (hsp.getCliques_perm.map Clique.id).nodup_iff.1 hsp.shape.cliques_nodup
  have hx : ∃ X, startClique jt = some X := by
    unfold startClique
    cases hl : (sortBy (fun a b => strLe (Clique.id a) (Clique.id b)) jt.getCliques).head? with
    | none =>
      exfalso
      unfold Arith.propagate at hp
      rw [hl] at hp
      cases hp
    | some a => exact ⟨a, rfl⟩
  obtain ⟨X, hx⟩ := hx
  have hX : X ∈ cs := by
    have := List.mem_of_mem_head? (show X ∈ startClique jt from hx)
    rw [mem_sortBy] at this
    exact (hsp.shape.mem_getCliques _).1 this
  have hXk : X.id ∈ Dict.keys jt.nodes := Dict.mem_keys_of_get? (hsp.get_clique hX)
  have hxn : ∀ z ∈ neighboringCliques js jt X.id, z.2 ≠ X.id := by
    intro z hz e
    obtain ⟨s, hs, C, hC, rfl, hj⟩ := (hsp.nb_spec js hX z).1 hz
    have := (hsp.fam.id_iff hC hX).1 e
    subst this
    have hg := hsp.shape.good s hs
    rcases hj with ⟨e1, e2⟩ | ⟨e1, e2⟩
    · exact hg.ne (e1.trans e2.symm)
    · exact hg.ne (e1.trans e2.symm)
  have hnn := hsp.nb_nodup js hX
  obtain ⟨pre, post, m', hw, hprop⟩ := propagate_walk_arith (A := A) js jt (x := X) (K := Dict.keys jt.nodes) hx
    (hsp.nb_keys js) (by simp [Dict.keys]) hXk hnn hxn
  have hedge := hw.edges (fun x hx => hx)
  obtain ⟨ex, hm', hpc⟩ := hw.marks
  have hm'n : m'.Nodup := hw.nodup (by
    rw [List.nodup_cons]
    refine ⟨?_, hnn⟩
    intro hc
    obtain ⟨z, hz, e⟩ := List.mem_map.1 hc
    exact hxn z hz e)
  have hndsm : (nds X.id pre).Perm m' := by
    rw [hm', List.cons_append]
    exact List.Perm.cons _ hpc
  have hpp := hw.perm
  have hndsp : (nds X.id post).Perm (nds X.id pre) := List.Perm.cons _ (hpp.symm.map _)
  have hnp : (nds X.id post).Nodup := hndsp.nodup_iff.2 (hndsm.nodup_iff.2 hm'n)
  obtain ⟨att1, conn1, join1⟩ := hsp.att js hX post hw.attO_post (fun e he => hedge e (hpp.mem_iff.2 he)) hnp
  have hok : ∀ e ∈ post, OkMsg jt e := by
    intro e he
    obtain ⟨s, hs, P, hP, C, hC, k1, k2, k3, hj⟩ := join1 e he
    have hg := hsp.shape.good s hs
    have memS : ∀ i, i ∈ vids s.nodes ↔ i ∈ vids P.nodes ∧ i ∈ vids C.nodes := by
      intro i
      rw [hg.mem_nodes]
      rcases hj with ⟨a1, a2⟩ | ⟨a1, a2⟩
      · rw [a1, a2]; rfl
      · rw [a1, a2]; exact And.comm
    refine ⟨?_, ?_, ?_, ?_, ?_, ?_, ?_⟩
    · rw [← k2]; exact Dict.mem_keys_of_get? (hsp.get_clique hP)
    · rw [← k1]; exact Dict.mem_keys_of_get? (hsp.get_sep hs)
    · rw [← k3]; exact Dict.mem_keys_of_get? (hsp.get_clique hC)
    · rw [← k1, ← k2]; exact Ne.symm (hg.ne_clique hsp.fam hP)
    · rw [← k1, ← k3]; exact Ne.symm (hg.ne_clique hsp.fam hC)
    · rw [← k1, ← k2, hsp.scope_sep hs, hsp.scope_clique hP]
      exact fun i hi => ((memS i).1 hi).1
    · rw [← k1, ← k3, hsp.scope_sep hs, hsp.scope_clique hC]
      exact fun i hi => ((memS i).1 hi).2
  have hndscs : ∀ k ∈ nds X.id post, k ∈ cs.map Clique.id := by
    intro k hk
    obtain ⟨C, hC, e, _⟩ := conn1 k hk
    rw [← e]
    exact List.mem_map_of_mem hC
  have hsepcs : ∀ e ∈ post, e.s ∉ cs.map Clique.id := by
    intro e he hm
    obtain ⟨C, hC, e1⟩ := List.mem_map.1 hm
    obtain ⟨s, hs, _, _, _, _, k1, _⟩ := join1 e he
    exact (hsp.shape.good s hs).ne_clique hsp.fam hC (e1.trans k1.symm)
  have hsn : (post.map Msg.s).Nodup := att1.seps_nodup
  have hlen : post.length ≤ M := by
    have := (List.Nodup.subperm hnp hndscs).length_le
    simp only [nds, List.length_cons, List.length_map] at this
    omega
  have hlen2 : pre.length = post.length := hpp.length_eq
  rw [hprop] at hp
  obtain ⟨j1, hp1, hp2⟩ := bind_ok hp
  obtain ⟨⟨p1, rfl⟩, hb1⟩ := h.passUp post hz hp1 hok hβ hb
  obtain ⟨u1, u2, u3⟩ := upB_bound (R := R) h.nonneg X.id post β hβ hw.attO_post hnp hsn (fun e he hm => hsepcs e he (hndscs _ hm))
    (fun e he => hout _ (hsepcs e he))
  obtain ⟨⟨p2, rfl⟩, hb2⟩ := h.passDown pre (hz.frame p1) hp2 (fun e he => hok e (hpp.mem_iff.1 he)) u1 hb1
  refine ⟨⟨_, rfl⟩, hb2.mono ?_⟩
  intro k _
  have hsum := (sum_subset_le hnp hidn hndscs hβ).trans hS
  have hMq : (post.length : ℚ) ≤ M := by exact_mod_cast hlen
  have hS0 : 0 ≤ S := by
    refine le_trans (List.sum_nonneg ?_) hS
    intro x hx
    obtain ⟨y, _, rfl⟩ := List.mem_map.1 hx
    exact hβ y
  have hΦ0 : (0 : ℚ) ≤ S + M * (κ * R + 2) := add_nonneg hS0 (mul_nonneg (Nat.cast_nonneg _) (by linarith))
  have hup : ∀ k, k ∈ nds X.id post ∨ k ∈ post.map Msg.s → upB κ R post β k ≤ S + M * (κ * R + 2) := by
    intro k hk
    refine (u2 k hk).trans ?_
    have : (post.length : ℚ) * (κ * R + 2) ≤ M * (κ * R + 2) := mul_le_mul_of_nonneg_right hMq (by linarith)
    linarith
  have hall : ∀ k, upB κ R post β k ≤ S + M * (κ * R + 2) := by
    intro k
    by_cases hk : k ∈ nds X.id post ∨ k ∈ post.map Msg.s
    · exact hup k hk
    · rw [not_or] at hk
      rw [u3 k hk.1 hk.2]
      by_cases hkc : k ∈ cs.map Clique.id
      · have h1 := (sum_nonneg_mem hβ hkc).trans hS
        have : (0 : ℚ) ≤ M * (κ * R + 2) := mul_nonneg (Nat.cast_nonneg _) (by linarith)
        linarith
      · rw [hout k hkc]
        exact hΦ0
  have hcn : (post.map Msg.c).Nodup := (List.nodup_cons.1 hnp).2
  have hd := downB_bound (R := R) h.nonneg hΦ0 pre (upB κ R post β) (S + M * (κ * R + 2)) hall (fun e _ => ⟨hall _, hall _⟩)
    ((hpp.map Msg.c).nodup_iff.2 hcn) ((hpp.map Msg.s).nodup_iff.2 hsn) (by
      intro e he e' he' heq
      have h1 := hndscs e.c (List.mem_cons_of_mem _ (List.mem_map_of_mem (hpp.mem_iff.1 he)))
      exact hsepcs e' (hpp.mem_iff.1 he') (heq ▸ h1)) k
  refine hd.trans ?_
  rw [hlen2]
  have : (post.length : ℚ) * (2 * (S + M * (κ * R + 2)) + κ * R + 2) ≤ M * (2 * (S + M * (κ * R + 2)) + κ * R + 2) :=
    mul_le_mul_of_nonneg_right hMq (by linarith)
  linarith

end

end PyBBN
