import Verif.Proofs.Walk
import Verif.Model.Arith

/-! The order of the messages (`Proofs/Walk.lean`) over an arbitrary arithmetic. -/

namespace PyBBN
open Propagator

variable {A : Arith}

/-! ### the program follows the walk -/

/-- messages towards the start, in list order -/
def Arith.passUp (A : Arith) (l : List Msg) (jt : JoinTree) : Py JoinTree := l.foldlM (fun jt e => A.passSingleMessage jt e.c e.s e.p) jt

/-- messages away from the start, in list order -/
def Arith.passDown (A : Arith) (l : List Msg) (jt : JoinTree) : Py JoinTree := l.foldlM (fun jt e => A.passSingleMessage jt e.p e.s e.c) jt

theorem passSingle_frame_arith {jt jt' : JoinTree} {x s y : Str} (h : A.passSingleMessage jt x s y = .ok jt') :
    ∃ p, jt' = { jt with potentials := p } := by
  unfold Arith.passSingleMessage at h
  simp only [bind, Except.bind] at h
  split at h
  · cases h
  · split at h
    · cases h
    · split at h
      · cases h
      · split at h
        · cases h
        · split at h
          · cases h
          · injection h with h
            exact ⟨_, h.symm⟩

theorem passUp_frame_arith {l : List Msg} {jt jt' : JoinTree} (h : A.passUp l jt = .ok jt') :
    ∃ p, jt' = { jt with potentials := p } := pass_frame (fun _ _ _ h => passSingle_frame_arith h) l jt jt' h

theorem passDown_frame_arith {l : List Msg} {jt jt' : JoinTree} (h : A.passDown l jt = .ok jt') :
    ∃ p, jt' = { jt with potentials := p } := pass_frame (fun _ _ _ h => passSingle_frame_arith h) l jt jt' h

theorem passUp_append_arith (a b : List Msg) (jt : JoinTree) : A.passUp (a ++ b) jt = A.passUp a jt >>= A.passUp b := by
  unfold Arith.passUp; rw [List.foldlM_append]

theorem passDown_append_arith (a b : List Msg) (jt : JoinTree) : A.passDown (a ++ b) jt = A.passDown a jt >>= A.passDown b := by
  unfold Arith.passDown; rw [List.foldlM_append]

theorem Walks.collect_arith (js : SetIter Str) {K : List Str} {nb : Str → List (Str × Str)} (hK : ∀ k, ∀ x ∈ nb k, x.2 ∈ K)
    {y : Str} {rest : List (Str × Str)} {m m' : List Str} {pre post : List Msg}
    (h : Walks nb y rest m pre post m') : ∀ (jt : JoinTree), neighboringCliques js jt = nb → m.Nodup →
      ∀ fuel, unmarked K m < fuel →
      rest.foldlM (fun st sc => A.collectWalk js fuel y sc.1 sc.2 st) (m, jt) =
        (A.passUp post jt).map (fun j => (m', j)) := by
  induction h with
  | nil y m => intro jt _ _ fuel _; rfl
  | @cons y s c rest m m1 m2 m3 new pre1 post1 pre2 post2 hm h1 h2 ih1 ih2 =>
    intro jt hnb hn fuel hf
    obtain ⟨fuel, rfl⟩ : ∃ f, fuel = f + 1 := ⟨fuel - 1, by omega⟩
    have hm1 := (markNew_spec hm).1
    have hmono : ∀ x ∈ m, x ∈ m2 := fun x hx => h1.mono x (by rw [hm1]; exact List.mem_append_left _ hx)
    have hn1 := (markNew_spec hm).2.2.2 hn
    have ih1' : new.foldlM (fun st sc => A.collectWalk js fuel c sc.1 sc.2 st) (m1, jt) =
        (A.passUp post1 jt).map (fun j => (m2, j)) := by
      by_cases hne : new = []
      · subst hne
        cases h1
        rfl
      · apply ih1 jt hnb hn1
        have := markNew_unmarked hm (hK c) hn hne
        omega
    rw [List.foldlM_cons, passUp_append_arith]
    have hw : A.collectWalk js (fuel + 1) y s c (m, jt) =
        (A.passUp post1 jt >>= fun j => A.passSingleMessage j c s y).map (fun j => (m2, j)) := by
      rw [Arith.collectWalk]
      simp only [hnb, hm]
      rw [ih1']
      cases h3 : A.passUp post1 jt with
      | error e => rfl
      | ok j =>
        show (do let jt ← A.passSingleMessage j c s y; Except.ok (m2, jt)) = _
        rfl
    show (A.collectWalk js (fuel + 1) y s c (m, jt) >>= _) = _
    rw [hw]
    cases h3 : A.passUp post1 jt with
    | error e => rfl
    | ok j =>
      show ((A.passSingleMessage j c s y).map (fun j => (m2, j)) >>= _) = (A.passUp (⟨y, s, c⟩ :: post2) j).map _
      unfold Arith.passUp
      rw [List.foldlM_cons]
      show _ = Except.map _ (A.passSingleMessage j c s y >>= _)
      cases h4 : A.passSingleMessage j c s y with
      | error e => rfl
      | ok j2 =>
        have hnb2 : neighboringCliques js j2 = nb := by
          obtain ⟨p1, rfl⟩ := passUp_frame_arith h3
          obtain ⟨p2, rfl⟩ := passSingle_frame_arith h4
          exact hnb
        exact ih2 j2 hnb2 (h1.nodup hn1) (fuel + 1) (lt_of_le_of_lt (unmarked_mono hmono) hf)

theorem Walks.distribute_arith (js : SetIter Str) {K : List Str} {nb : Str → List (Str × Str)} (hK : ∀ k, ∀ x ∈ nb k, x.2 ∈ K)
    {y : Str} {rest : List (Str × Str)} {m m' : List Str} {pre post : List Msg}
    (h : Walks nb y rest m pre post m') : ∀ (jt : JoinTree), neighboringCliques js jt = nb → m.Nodup →
      ∀ fuel, unmarked K m < fuel →
      rest.foldlM (fun st sc => do
        let jt ← A.passSingleMessage st.2 y sc.1 sc.2
        A.distributeWalk js fuel sc.2 (st.1, jt)) (m, jt) =
        (A.passDown pre jt).map (fun j => (m', j)) := by
  induction h with
  | nil y m => intro jt _ _ fuel _; rfl
  | @cons y s c rest m m1 m2 m3 new pre1 post1 pre2 post2 hm h1 h2 ih1 ih2 =>
    intro jt hnb hn fuel hf
    obtain ⟨fuel, rfl⟩ : ∃ f, fuel = f + 1 := ⟨fuel - 1, by omega⟩
    have hm1 := (markNew_spec hm).1
    have hmono : ∀ x ∈ m, x ∈ m2 := fun x hx => h1.mono x (by rw [hm1]; exact List.mem_append_left _ hx)
    have hn1 := (markNew_spec hm).2.2.2 hn
    have ih1' : ∀ jt : JoinTree, neighboringCliques js jt = nb → A.distributeWalk js (fuel + 1) c (m, jt) =
        (A.passDown pre1 jt).map (fun j => (m2, j)) := by
      intro jt hnb
      rw [Arith.distributeWalk]
      simp only [hnb, hm]
      by_cases hne : new = []
      · subst hne
        cases h1
        rfl
      · apply ih1 jt hnb hn1
        have := markNew_unmarked hm (hK c) hn hne
        omega
    rw [List.foldlM_cons]
    show ((A.passSingleMessage jt y s c >>= fun jt => A.distributeWalk js (fuel + 1) c (m, jt)) >>= _) = _
    unfold Arith.passDown
    rw [List.foldlM_cons]
    show _ = Except.map _ (A.passSingleMessage jt y s c >>= _)
    cases h3 : A.passSingleMessage jt y s c with
    | error e => rfl
    | ok j =>
      have hnb1 : neighboringCliques js j = nb := by
        obtain ⟨p1, rfl⟩ := passSingle_frame_arith h3
        exact hnb
      show (A.distributeWalk js (fuel + 1) c (m, j) >>= _) = Except.map _ (A.passDown (pre1 ++ pre2) j)
      rw [ih1' j hnb1, passDown_append_arith]
      cases h4 : A.passDown pre1 j with
      | error e => rfl
      | ok j2 =>
        have hnb2 : neighboringCliques js j2 = nb := by
          obtain ⟨p2, rfl⟩ := passDown_frame_arith h4
          exact hnb1
        exact ih2 j2 hnb2 (h1.nodup hn1) (fuel + 1) (lt_of_le_of_lt (unmarked_mono hmono) hf)

/-- over any arithmetic, `propagate` from a start whose neighbors are distinct passes the messages of one walk up and then down -/
theorem propagate_walk_arith (js : SetIter Str) (jt : JoinTree) {x : Clique} {K : List Str}
    (hx : (sortBy (fun a b => strLe (Clique.id a) (Clique.id b)) jt.getCliques).head? = some x)
    (hK : ∀ k, ∀ z ∈ neighboringCliques js jt k, z.2 ∈ K) (hKlen : K.length ≤ jt.nodes.length) (hxK : x.id ∈ K)
    (hn : ((neighboringCliques js jt x.id).map Prod.snd).Nodup)
    (hxn : ∀ z ∈ neighboringCliques js jt x.id, z.2 ≠ x.id) :
    ∃ pre post m', Walks (neighboringCliques js jt) x.id (neighboringCliques js jt x.id)
        (x.id :: (neighboringCliques js jt x.id).map Prod.snd) pre post m' ∧
      A.propagate js jt = A.passUp post jt >>= A.passDown pre := by
  set nb := neighboringCliques js jt with hnb
  set m := x.id :: (nb x.id).map Prod.snd with hm
  have hmn : m.Nodup := by
    rw [hm, List.nodup_cons]
    refine ⟨?_, hn⟩
    intro hc
    obtain ⟨z, hz, e⟩ := List.mem_map.1 hc
    exact hxn z hz e
  obtain ⟨pre, post, m', hw⟩ := Walks.exists (nb := nb) hK _ x.id (nb x.id) m hmn (le_refl _)
  refine ⟨pre, post, m', hw, ?_⟩
  have hfuel : unmarked K m < jt.nodes.length := by
    refine lt_of_lt_of_le ?_ hKlen
    have := unmarked_lt (K := K) (m := []) (m' := m) (by simp) hxK (by simp) (by simp [hm])
    refine lt_of_lt_of_le this ?_
    unfold unmarked
    exact List.length_filter_le _ _
  unfold Arith.propagate
  rw [hx]
  simp only
  have hc : A.collect js jt.nodes.length jt x.id = A.passUp post jt := by
    unfold Arith.collect
    have := hw.collect_arith (A := A) js hK jt rfl hmn _ hfuel
    simp only [← hnb, ← hm]
    rw [this]
    cases A.passUp post jt <;> rfl
  rw [hc]
  cases h1 : A.passUp post jt with
  | error e => rfl
  | ok j =>
    obtain ⟨p, rfl⟩ := passUp_frame_arith h1
    show A.distribute js _ _ x.id = A.passDown pre _
    unfold Arith.distribute
    have := hw.distribute_arith (A := A) js hK { jt with potentials := p } rfl hmn _ hfuel
    have e : neighboringCliques js { jt with potentials := p } = nb := rfl
    simp only [e, ← hm]
    rw [this]
    cases A.passDown pre { jt with potentials := p } <;> rfl

end PyBBN
