import Verif.Model.Trace
import Verif.Proofs.Calibrate

/-! The record of the messages of a propagation. -/

namespace PyBBN
open Propagator

/-! ### without the record it is the same program -/

theorem passT_fst (st : JoinTree × List Call) (x s y : Str) : (passT st x s y).map Prod.fst = passSingleMessage st.1 x s y := by
  unfold passT
  cases passSingleMessage st.1 x s y <;> rfl

/-- running two programs step by step over a list -/
theorem foldlM_sim {α S S' : Type} (π : S → S') {f : S → α → Py S} {g : S' → α → Py S'} (h : ∀ st a, (f st a).map π = g (π st) a) :
    ∀ (l : List α) (st : S), (l.foldlM f st).map π = l.foldlM g (π st)
  | [], st => rfl
  | a :: l, st => by
      rw [List.foldlM_cons, List.foldlM_cons, ← h st a]
      cases hf : f st a with
      | error e => rfl
      | ok st' => exact foldlM_sim π h l st'

/-- forget the record -/
def dropT (st : List Str × JoinTree × List Call) : List Str × JoinTree := (st.1, st.2.1)

theorem collectWalkT_fst (js : SetIter Str) : ∀ (fuel : Nat) (x s y : Str) (st : List Str × JoinTree × List Call),
    (collectWalkT js fuel x s y st).map dropT = collectWalk js fuel x s y (dropT st)
  | 0, _, _, _, _ => rfl
  | fuel + 1, x, s, y, st => by
      rw [collectWalkT, collectWalk]
      have ih := foldlM_sim dropT (f := fun st sc => collectWalkT js fuel y sc.1 sc.2 st)
        (g := fun st sc => collectWalk js fuel y sc.1 sc.2 st) (fun st sc => collectWalkT_fst js fuel y sc.1 sc.2 st)
        (markNew st.1 (neighboringCliques js st.2.1 y)).2 ((markNew st.1 (neighboringCliques js st.2.1 y)).1, st.2)
      change _ = (do
        let st ← (markNew st.1 (neighboringCliques js st.2.1 y)).2.foldlM (fun (st : List Str × JoinTree) (sc : Str × Str) => collectWalk js fuel y sc.1 sc.2 st)
          (dropT ((markNew st.1 (neighboringCliques js st.2.1 y)).1, st.2))
        let jt ← passSingleMessage st.2 y s x
        .ok (st.1, jt))
      rw [← ih]
      cases (markNew st.1 (neighboringCliques js st.2.1 y)).2.foldlM (fun st sc => collectWalkT js fuel y sc.1 sc.2 st)
          ((markNew st.1 (neighboringCliques js st.2.1 y)).1, st.2) with
      | error e => rfl
      | ok st1 =>
        change ((passT st1.2 y s x) >>= fun jt => Except.ok (st1.1, jt)).map dropT = (passSingleMessage st1.2.1 y s x) >>= fun jt => Except.ok (st1.1, jt)
        rw [← passT_fst]
        cases passT st1.2 y s x <;> rfl

theorem distributeWalkT_fst (js : SetIter Str) : ∀ (fuel : Nat) (y : Str) (st : List Str × JoinTree × List Call),
    (distributeWalkT js fuel y st).map dropT = distributeWalk js fuel y (dropT st)
  | 0, _, _ => rfl
  | fuel + 1, y, st => by
      rw [distributeWalkT, distributeWalk]
      refine foldlM_sim dropT ?_ _ _
      intro st sc
      change ((passT st.2 y sc.1 sc.2) >>= fun jt => distributeWalkT js fuel sc.2 (st.1, jt)).map dropT =
        (passSingleMessage st.2.1 y sc.1 sc.2) >>= fun jt => distributeWalk js fuel sc.2 (st.1, jt)
      rw [← passT_fst]
      cases passT st.2 y sc.1 sc.2 with
      | error e => rfl
      | ok j => exact distributeWalkT_fst js fuel sc.2 (st.1, j)

theorem propagateT_fst (js : SetIter Str) (jt : JoinTree) : (propagateT js jt).map Prod.fst = propagate js jt := by
  unfold propagateT propagate
  cases (sortBy (fun a b => strLe (Clique.id a) (Clique.id b)) jt.getCliques).head? with
  | none => rfl
  | some x =>
    have hc : (collectT js jt.nodes.length (jt, []) x.id).map Prod.fst = collect js jt.nodes.length jt x.id := by
      unfold collectT collect
      have := foldlM_sim dropT (f := fun st sc => collectWalkT js jt.nodes.length x.id sc.1 sc.2 st)
        (g := fun st sc => collectWalk js jt.nodes.length x.id sc.1 sc.2 st) (fun st sc => collectWalkT_fst js _ x.id sc.1 sc.2 st)
        (neighboringCliques js jt x.id) (x.id :: (neighboringCliques js jt x.id).map Prod.snd, jt, [])
      change _ = ((neighboringCliques js jt x.id).foldlM (fun st sc => collectWalk js jt.nodes.length x.id sc.1 sc.2 st)
        (dropT (x.id :: (neighboringCliques js jt x.id).map Prod.snd, jt, [])) >>= fun st => Except.ok st.2)
      rw [← this]
      change ((neighboringCliques js jt x.id).foldlM (fun st sc => collectWalkT js jt.nodes.length x.id sc.1 sc.2 st)
        (x.id :: (neighboringCliques js jt x.id).map Prod.snd, jt, []) >>= fun st => Except.ok st.2).map Prod.fst = _
      cases (neighboringCliques js jt x.id).foldlM (fun st sc => collectWalkT js jt.nodes.length x.id sc.1 sc.2 st)
        (x.id :: (neighboringCliques js jt x.id).map Prod.snd, jt, []) <;> rfl
    have hd : ∀ st : JoinTree × List Call, (distributeT js st.1.nodes.length st x.id).map Prod.fst = distribute js st.1.nodes.length st.1 x.id := by
      intro st
      unfold distributeT distribute
      have := foldlM_sim dropT (f := fun st' sc => do
          let jt ← passT st'.2 x.id sc.1 sc.2
          distributeWalkT js st.1.nodes.length sc.2 (st'.1, jt))
        (g := fun st' sc => do
          let jt ← passSingleMessage st'.2 x.id sc.1 sc.2
          distributeWalk js st.1.nodes.length sc.2 (st'.1, jt)) (by
          intro st' sc
          change ((passT st'.2 x.id sc.1 sc.2) >>= fun jt => distributeWalkT js _ sc.2 (st'.1, jt)).map dropT =
            (passSingleMessage st'.2.1 x.id sc.1 sc.2) >>= fun jt => distributeWalk js _ sc.2 (st'.1, jt)
          rw [← passT_fst]
          cases passT st'.2 x.id sc.1 sc.2 with
          | error e => rfl
          | ok j => exact distributeWalkT_fst js _ sc.2 (st'.1, j))
        (neighboringCliques js st.1 x.id) (x.id :: (neighboringCliques js st.1 x.id).map Prod.snd, st)
      change _ = ((neighboringCliques js st.1 x.id).foldlM (fun st' sc => do
          let jt ← passSingleMessage st'.2 x.id sc.1 sc.2
          distributeWalk js st.1.nodes.length sc.2 (st'.1, jt))
        (dropT (x.id :: (neighboringCliques js st.1 x.id).map Prod.snd, st)) >>= fun st => Except.ok st.2)
      rw [← this]
      change ((neighboringCliques js st.1 x.id).foldlM (fun st' sc => do
          let jt ← passT st'.2 x.id sc.1 sc.2
          distributeWalkT js st.1.nodes.length sc.2 (st'.1, jt))
        (x.id :: (neighboringCliques js st.1 x.id).map Prod.snd, st) >>= fun st => Except.ok st.2).map Prod.fst = _
      cases (neighboringCliques js st.1 x.id).foldlM (fun (st' : List Str × JoinTree × List Call) sc => do
          let jt ← passT st'.2 x.id sc.1 sc.2
          distributeWalkT js st.1.nodes.length sc.2 (st'.1, jt))
        (x.id :: (neighboringCliques js st.1 x.id).map Prod.snd, st) <;> rfl
    change ((collectT js jt.nodes.length (jt, []) x.id) >>= fun st => distributeT js st.1.nodes.length st x.id).map Prod.fst =
      (collect js jt.nodes.length jt x.id) >>= fun jt => distribute js jt.nodes.length jt x.id
    rw [← hc]
    cases collectT js jt.nodes.length (jt, []) x.id with
    | error e => rfl
    | ok st => exact hd st

/-! ### the record follows the walk -/

def Msg.up (e : Msg) : Call := ⟨e.c, e.s, e.p⟩
def Msg.down (e : Msg) : Call := ⟨e.p, e.s, e.c⟩

theorem Walks.collectT (js : SetIter Str) {K : List Str} {nb : Str → List (Str × Str)} (hK : ∀ k, ∀ x ∈ nb k, x.2 ∈ K)
    {y : Str} {rest : List (Str × Str)} {m m' : List Str} {pre post : List Msg}
    (h : Walks nb y rest m pre post m') : ∀ (jt : JoinTree) (log : List Call), neighboringCliques js jt = nb → m.Nodup →
      ∀ fuel, unmarked K m < fuel →
      rest.foldlM (fun st sc => collectWalkT js fuel y sc.1 sc.2 st) (m, jt, log) =
        (passUp post jt).map (fun j => (m', j, log ++ post.map Msg.up)) := by
  induction h with
  | nil y m => intro jt log _ _ fuel _; simp [passUp, pure, Except.pure, Except.map]
  | @cons y s c rest m m1 m2 m3 new pre1 post1 pre2 post2 hm h1 h2 ih1 ih2 =>
    intro jt log hnb hn fuel hf
    obtain ⟨fuel, rfl⟩ : ∃ f, fuel = f + 1 := ⟨fuel - 1, by omega⟩
    have hm1 := (markNew_spec hm).1
    have hmono : ∀ x ∈ m, x ∈ m2 := fun x hx => h1.mono x (by rw [hm1]; exact List.mem_append_left _ hx)
    have hn1 := (markNew_spec hm).2.2.2 hn
    have ih1' : new.foldlM (fun st sc => collectWalkT js fuel c sc.1 sc.2 st) (m1, jt, log) =
        (passUp post1 jt).map (fun j => (m2, j, log ++ post1.map Msg.up)) := by
      by_cases hne : new = []
      · subst hne
        cases h1
        simp [passUp, pure, Except.pure, Except.map]
      · apply ih1 jt log hnb hn1
        have := markNew_unmarked hm (hK c) hn hne
        omega
    rw [List.foldlM_cons, passUp_append]
    have hw : collectWalkT js (fuel + 1) y s c (m, jt, log) =
        (passUp post1 jt >>= fun j => passSingleMessage j c s y).map (fun j => (m2, j, log ++ post1.map Msg.up ++ [⟨c, s, y⟩])) := by
      rw [collectWalkT]
      simp only [hnb, hm]
      rw [ih1']
      cases h3 : passUp post1 jt with
      | error e => rfl
      | ok j =>
        show (do let jt ← passT (j, log ++ post1.map Msg.up) c s y; Except.ok (m2, jt)) = _
        unfold passT
        show _ = (passSingleMessage j c s y).map _
        cases passSingleMessage j c s y <;> rfl
    show (collectWalkT js (fuel + 1) y s c (m, jt, log) >>= _) = _
    rw [hw]
    cases h3 : passUp post1 jt with
    | error e => rfl
    | ok j =>
      show ((passSingleMessage j c s y).map _ >>= _) = (passUp (⟨y, s, c⟩ :: post2) j).map _
      unfold passUp
      rw [List.foldlM_cons]
      show _ = Except.map _ (passSingleMessage j c s y >>= _)
      cases h4 : passSingleMessage j c s y with
      | error e => rfl
      | ok j2 =>
        have hnb2 : neighboringCliques js j2 = nb := by
          obtain ⟨p1, rfl⟩ := passUp_frame h3
          obtain ⟨p2, rfl⟩ := passSingle_frame h4
          exact hnb
        have := ih2 j2 (log ++ post1.map Msg.up ++ [⟨c, s, y⟩]) hnb2 (h1.nodup hn1) (fuel + 1) (lt_of_le_of_lt (unmarked_mono hmono) hf)
        simp only [List.map_append, List.map_cons]
        have e : log ++ (post1.map Msg.up ++ Msg.up ⟨y, s, c⟩ :: post2.map Msg.up) =
            (log ++ post1.map Msg.up ++ [⟨c, s, y⟩]) ++ post2.map Msg.up := by simp [Msg.up]
        rw [e]
        exact this

theorem Walks.distributeT (js : SetIter Str) {K : List Str} {nb : Str → List (Str × Str)} (hK : ∀ k, ∀ x ∈ nb k, x.2 ∈ K)
    {y : Str} {rest : List (Str × Str)} {m m' : List Str} {pre post : List Msg}
    (h : Walks nb y rest m pre post m') : ∀ (jt : JoinTree) (log : List Call), neighboringCliques js jt = nb → m.Nodup →
      ∀ fuel, unmarked K m < fuel →
      rest.foldlM (fun st sc => do
        let jt ← passT st.2 y sc.1 sc.2
        distributeWalkT js fuel sc.2 (st.1, jt)) (m, jt, log) =
        (passDown pre jt).map (fun j => (m', j, log ++ pre.map Msg.down)) := by
  induction h with
  | nil y m => intro jt log _ _ fuel _; simp [passDown, pure, Except.pure, Except.map]
  | @cons y s c rest m m1 m2 m3 new pre1 post1 pre2 post2 hm h1 h2 ih1 ih2 =>
    intro jt log hnb hn fuel hf
    obtain ⟨fuel, rfl⟩ : ∃ f, fuel = f + 1 := ⟨fuel - 1, by omega⟩
    have hm1 := (markNew_spec hm).1
    have hmono : ∀ x ∈ m, x ∈ m2 := fun x hx => h1.mono x (by rw [hm1]; exact List.mem_append_left _ hx)
    have hn1 := (markNew_spec hm).2.2.2 hn
    have ih1' : ∀ (jt : JoinTree) (log : List Call), neighboringCliques js jt = nb → distributeWalkT js (fuel + 1) c (m, jt, log) =
        (passDown pre1 jt).map (fun j => (m2, j, log ++ pre1.map Msg.down)) := by
      intro jt log hnb
      rw [distributeWalkT]
      simp only [hnb, hm]
      by_cases hne : new = []
      · subst hne
        cases h1
        simp [passDown, pure, Except.pure, Except.map]
      · apply ih1 jt log hnb hn1
        have := markNew_unmarked hm (hK c) hn hne
        omega
    rw [List.foldlM_cons]
    show ((passT (jt, log) y s c >>= fun jt => distributeWalkT js (fuel + 1) c (m, jt)) >>= _) = _
    unfold passDown
    rw [List.foldlM_cons]
    show _ = Except.map _ (passSingleMessage jt y s c >>= _)
    have hpt : passT (jt, log) y s c = (passSingleMessage jt y s c).map (fun j => (j, log ++ [⟨y, s, c⟩])) := by
      unfold passT
      show (passSingleMessage jt y s c >>= _) = _
      cases passSingleMessage jt y s c <;> rfl
    rw [hpt]
    cases h3 : passSingleMessage jt y s c with
    | error e => rfl
    | ok j =>
      have hnb1 : neighboringCliques js j = nb := by
        obtain ⟨p1, rfl⟩ := passSingle_frame h3
        exact hnb
      show (distributeWalkT js (fuel + 1) c (m, j, log ++ [⟨y, s, c⟩]) >>= _) = Except.map _ (passDown (pre1 ++ pre2) j)
      rw [ih1' j _ hnb1, passDown_append]
      cases h4 : passDown pre1 j with
      | error e => rfl
      | ok j2 =>
        have hnb2 : neighboringCliques js j2 = nb := by
          obtain ⟨p2, rfl⟩ := passDown_frame h4
          exact hnb1
        have := ih2 j2 (log ++ [⟨y, s, c⟩] ++ pre1.map Msg.down) hnb2 (h1.nodup hn1) (fuel + 1) (lt_of_le_of_lt (unmarked_mono hmono) hf)
        simp only [List.map_append, List.map_cons]
        have e : log ++ Msg.down ⟨y, s, c⟩ :: (pre1.map Msg.down ++ pre2.map Msg.down) =
            (log ++ [⟨y, s, c⟩] ++ pre1.map Msg.down) ++ pre2.map Msg.down := by simp [Msg.down]
        rw [e]
        exact this

/-- the record of a propagation: the messages of one walk up and then down -/
theorem propagateT_walk (js : SetIter Str) (jt : JoinTree) {x : Clique} {K : List Str}
    (hx : (sortBy (fun a b => strLe (Clique.id a) (Clique.id b)) jt.getCliques).head? = some x)
    (hK : ∀ k, ∀ z ∈ neighboringCliques js jt k, z.2 ∈ K) (hKlen : K.length ≤ jt.nodes.length) (hxK : x.id ∈ K)
    (hn : ((neighboringCliques js jt x.id).map Prod.snd).Nodup)
    (hxn : ∀ z ∈ neighboringCliques js jt x.id, z.2 ≠ x.id) :
    ∃ pre post m', Walks (neighboringCliques js jt) x.id (neighboringCliques js jt x.id)
        (x.id :: (neighboringCliques js jt x.id).map Prod.snd) pre post m' ∧
      ∀ jt' log, propagateT js jt = .ok (jt', log) → log = post.map Msg.up ++ pre.map Msg.down := by
  set nb := neighboringCliques js jt with hnb
  set m := x.id :: (nb x.id).map Prod.snd with hm
  have hmn : m.Nodup := by
    rw [hm, List.nodup_cons]
    refine ⟨?_, hn⟩
    intro hc
    obtain ⟨z, hz, e⟩ := List.mem_map.1 hc
    exact hxn z hz e
  obtain ⟨pre, post, m', hw⟩ := Walks.exists (nb := nb) hK _ x.id (nb x.id) m hmn (le_refl _)
  refine ⟨pre, post, m', hw, ?_⟩
  have hfuel : unmarked K m < jt.nodes.length := by
    refine lt_of_lt_of_le ?_ hKlen
    have := unmarked_lt (K := K) (m := []) (m' := m) (by simp) hxK (by simp) (by simp [hm])
    refine lt_of_lt_of_le this ?_
    unfold unmarked
    exact List.length_filter_le _ _
  intro jt' log hr
  unfold propagateT at hr
  rw [hx] at hr
  simp only at hr
  have hc : Propagator.collectT js jt.nodes.length (jt, []) x.id = (passUp post jt).map (fun j => (j, post.map Msg.up)) := by
    unfold Propagator.collectT
    have := hw.collectT js hK jt [] rfl hmn _ hfuel
    simp only [← hnb, ← hm]
    rw [this]
    cases passUp post jt <;> rfl
  rw [hc] at hr
  cases h1 : passUp post jt with
  | error e => rw [h1] at hr; cases hr
  | ok j =>
    rw [h1] at hr
    obtain ⟨p, rfl⟩ := passUp_frame h1
    change Propagator.distributeT js _ (_, post.map Msg.up) x.id = _ at hr
    unfold Propagator.distributeT at hr
    have := hw.distributeT js hK { jt with potentials := p } (post.map Msg.up) rfl hmn _ hfuel
    have e : neighboringCliques js { jt with potentials := p } = nb := rfl
    simp only [e, ← hm] at hr
    rw [this] at hr
    cases h2 : passDown pre { jt with potentials := p } with
    | error e => rw [h2] at hr; cases hr
    | ok j2 =>
      rw [h2] at hr
      injection hr with hr
      injection hr with hr1 hr2
      exact hr2.symm

end PyBBN
