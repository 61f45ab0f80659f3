import Verif.Proofs.Message
import Verif.Model.Pptc

/-! The order in which collecting and distributing visit the cliques. -/

namespace PyBBN
open Propagator

/-- the walk from `y` over the given neighbors: visited edges in pre-order and in post-order, marks before and after -/
inductive Walks (nb : Str → List (Str × Str)) : Str → List (Str × Str) → List Str → List Msg → List Msg → List Str → Prop
  | nil (y : Str) (m : List Str) : Walks nb y [] m [] [] m
  | cons {y s c : Str} {rest : List (Str × Str)} {m m1 m2 m3 : List Str} {new : List (Str × Str)}
      {pre1 post1 pre2 post2 : List Msg} (hm : markNew m (nb c) = (m1, new)) (h1 : Walks nb c new m1 pre1 post1 m2)
      (h2 : Walks nb y rest m2 pre2 post2 m3) :
      Walks nb y ((s, c) :: rest) m (⟨y, s, c⟩ :: (pre1 ++ pre2)) (post1 ++ ⟨y, s, c⟩ :: post2) m3

/-! ### marking -/

theorem markNew_go (m : List Str) (acc : List (Str × Str)) : ∀ (l : List (Str × Str)) (m' : List Str) (new : List (Str × Str)),
    l.foldl (fun mt sc => if sc.2 ∈ mt.1 then mt else (mt.1 ++ [sc.2], mt.2 ++ [sc])) (m, acc) = (m', new) →
    ∃ ns, new = acc ++ ns ∧ m' = m ++ ns.map Prod.snd ∧ (∀ x ∈ ns, x ∈ l) ∧ (∀ x ∈ l, x.2 ∈ m') ∧
      (m.Nodup → m'.Nodup) := by
  intro l
  induction l generalizing m acc with
  | nil =>
    intro m' new h
    simp only [List.foldl_nil, Prod.mk.injEq] at h
    exact ⟨[], by simp [h.2], by simp [h.1], by simp, by simp, by rw [h.1]; exact id⟩
  | cons sc l ih =>
    intro m' new h
    rw [List.foldl_cons] at h
    by_cases hm : sc.2 ∈ m
    · rw [if_pos hm] at h
      obtain ⟨ns, h1, h2, h3, h4, h5⟩ := ih m acc m' new h
      refine ⟨ns, h1, h2, fun x hx => List.mem_cons_of_mem _ (h3 x hx), ?_, h5⟩
      intro x hx
      rcases List.mem_cons.1 hx with rfl | hx
      · rw [h2]; exact List.mem_append_left _ hm
      · exact h4 x hx
    · rw [if_neg hm] at h
      obtain ⟨ns, h1, h2, h3, h4, h5⟩ := ih (m ++ [sc.2]) (acc ++ [sc]) m' new h
      refine ⟨sc :: ns, by simp [h1], by simp [h2], ?_, ?_, ?_⟩
      · intro x hx
        rcases List.mem_cons.1 hx with rfl | hx
        · exact List.mem_cons_self
        · exact List.mem_cons_of_mem _ (h3 x hx)
      · intro x hx
        rcases List.mem_cons.1 hx with rfl | hx
        · rw [h2]; simp
        · exact h4 x hx
      · intro hn
        apply h5
        rw [List.nodup_append]
        refine ⟨hn, by simp, ?_⟩
        intro a ha b hb e
        simp at hb
        exact hm (hb ▸ e ▸ ha)

theorem markNew_spec {m m' : List Str} {l new : List (Str × Str)} (h : markNew m l = (m', new)) :
    m' = m ++ new.map Prod.snd ∧ (∀ x ∈ new, x ∈ l) ∧ (∀ x ∈ l, x.2 ∈ m') ∧ (m.Nodup → m'.Nodup) := by
  obtain ⟨ns, h1, h2, h3, h4, h5⟩ := markNew_go m [] l m' new h
  simp only [List.nil_append] at h1
  subst h1
  exact ⟨h2, h3, h4, h5⟩

/-- marking distinct unmarked neighbors marks them all -/
theorem markNew_all : ∀ {l : List (Str × Str)} {m : List Str}, (l.map Prod.snd).Nodup → (∀ x ∈ l, x.2 ∉ m) →
    markNew m l = (m ++ l.map Prod.snd, l) := by
  have key : ∀ (l : List (Str × Str)) (m : List Str) (acc : List (Str × Str)), (l.map Prod.snd).Nodup →
      (∀ x ∈ l, x.2 ∉ m) →
      l.foldl (fun mt sc => if sc.2 ∈ mt.1 then mt else (mt.1 ++ [sc.2], mt.2 ++ [sc])) (m, acc) =
        (m ++ l.map Prod.snd, acc ++ l) := by
    intro l
    induction l with
    | nil => intros; simp
    | cons sc l ih =>
      intro m acc hn hm
      rw [List.map_cons, List.nodup_cons] at hn
      rw [List.foldl_cons, if_neg (hm sc List.mem_cons_self), ih _ _ hn.2 (by
        intro x hx hx'
        rcases List.mem_append.1 hx' with h | h
        · exact hm x (List.mem_cons_of_mem _ hx) h
        · simp at h
          exact hn.1 (h ▸ List.mem_map_of_mem hx))]
      simp
  intro l m hn hm
  have := key l m [] hn hm
  rw [List.nil_append] at this
  exact this

/-! ### structure of a walk -/

section
variable {nb : Str → List (Str × Str)} {y : Str} {rest : List (Str × Str)} {m m' : List Str} {pre post : List Msg}

theorem Walks.perm (h : Walks nb y rest m pre post m') : pre.Perm post := by
  induction h with
  | nil => exact List.Perm.refl _
  | cons hm h1 h2 ih1 ih2 =>
    refine List.Perm.trans ?_ List.perm_middle.symm
    exact List.Perm.cons _ (ih1.append ih2)

theorem Walks.marks (h : Walks nb y rest m pre post m') :
    ∃ ex, m' = m ++ ex ∧ (pre.map Msg.c).Perm (rest.map Prod.snd ++ ex) := by
  induction h with
  | nil => exact ⟨[], by simp, by simp⟩
  | @cons y s c rest m m1 m2 m3 new pre1 post1 pre2 post2 hm h1 h2 ih1 ih2 =>
    obtain ⟨e1, a1, b1⟩ := ih1
    obtain ⟨e2, a2, b2⟩ := ih2
    have hm1 := (markNew_spec hm).1
    refine ⟨new.map Prod.snd ++ e1 ++ e2, by rw [a2, a1, hm1]; simp, ?_⟩
    simp only [List.map_cons, List.map_append, List.cons_append]
    refine List.Perm.cons _ ?_
    refine (b1.append b2).trans ?_
    have hp := List.perm_append_comm_assoc (new.map Prod.snd ++ e1) (rest.map Prod.snd) e2
    simpa [List.append_assoc] using hp

theorem Walks.nodup (h : Walks nb y rest m pre post m') (hn : m.Nodup) : m'.Nodup := by
  induction h with
  | nil => exact hn
  | cons hm h1 h2 ih1 ih2 => exact ih2 (ih1 ((markNew_spec hm).2.2.2 hn))

theorem Walks.edges (h : Walks nb y rest m pre post m') (hr : ∀ x ∈ rest, x ∈ nb y) :
    ∀ e ∈ pre, (e.s, e.c) ∈ nb e.p := by
  induction h with
  | nil => simp
  | cons hm h1 h2 ih1 ih2 =>
    intro e he
    rcases List.mem_cons.1 he with rfl | he
    · exact hr _ List.mem_cons_self
    · rcases List.mem_append.1 he with he | he
      · exact ih1 ((markNew_spec hm).2.1) e he
      · exact ih2 (fun x hx => hr x (List.mem_cons_of_mem _ hx)) e he

theorem Walks.mono (h : Walks nb y rest m pre post m') : ∀ x ∈ m, x ∈ m' := by
  obtain ⟨ex, h1, _⟩ := h.marks
  intro x hx
  rw [h1]; exact List.mem_append_left _ hx

/-- every visited clique has all its neighbors marked in the end -/
theorem Walks.closed (h : Walks nb y rest m pre post m') : ∀ e ∈ pre, ∀ x ∈ nb e.c, x.2 ∈ m' := by
  induction h with
  | nil => simp
  | cons hm h1 h2 ih1 ih2 =>
    intro e he x hx
    rcases List.mem_cons.1 he with rfl | he
    · exact h2.mono _ (h1.mono _ ((markNew_spec hm).2.2.1 x hx))
    · rcases List.mem_append.1 he with he | he
      · exact h2.mono _ (ih1 e he x hx)
      · exact ih2 e he x hx

/-- latest first: every parent is in `S` or attached earlier -/
def AttO (S : List Str) : List Msg → Prop
  | [] => True
  | m :: L => (m.p ∈ S ∨ m.p ∈ L.map Msg.c) ∧ AttO S L

theorem AttO.append {S S' : List Str} {B : List Msg} (hB : AttO S B) (hS : ∀ x ∈ S', x ∈ S ∨ x ∈ B.map Msg.c) :
    ∀ {A : List Msg}, AttO S' A → AttO S (A ++ B)
  | [], _ => hB
  | m :: A, h => by
      refine ⟨?_, AttO.append hB hS h.2⟩
      rcases h.1 with h1 | h1
      · rcases hS _ h1 with h2 | h2
        · exact Or.inl h2
        · exact Or.inr (by show _ ∈ (A ++ B).map Msg.c; rw [List.map_append]; exact List.mem_append_right _ h2)
      · exact Or.inr (by show _ ∈ (A ++ B).map Msg.c; rw [List.map_append]; exact List.mem_append_left _ h1)

theorem Walks.attO_post (h : Walks nb y rest m pre post m') : AttO [y] post := by
  induction h with
  | nil => trivial
  | @cons y s c rest m m1 m2 m3 new pre1 post1 pre2 post2 hm h1 h2 ih1 ih2 =>
    refine AttO.append (S' := [c]) (show AttO [y] (⟨y, s, c⟩ :: post2) from ⟨Or.inl (by simp), ih2⟩) ?_ ih1
    intro x hx
    simp at hx
    right; simp [hx]

theorem Walks.attO_pre (h : Walks nb y rest m pre post m') : AttO [y] pre.reverse := by
  induction h with
  | nil => trivial
  | @cons y s c rest m m1 m2 m3 new pre1 post1 pre2 post2 hm h1 h2 ih1 ih2 =>
    rw [List.reverse_cons, List.reverse_append, List.append_assoc]
    refine AttO.append (S' := [y]) ?_ (fun x hx => Or.inl hx) ih2
    refine AttO.append (S' := [c]) (show AttO [y] [⟨y, s, c⟩] from ⟨Or.inl (by simp), trivial⟩) ?_ ih1
    intro x hx
    simp at hx
    right; simp [hx]

end

/-! ### existence -/

/-- number of unmarked cliques -/
def unmarked (K : List Str) (m : List Str) : Nat := (K.filter (fun k => decide (k ∉ m))).length

theorem unmarked_mono {K m m' : List Str} (h : ∀ x ∈ m, x ∈ m') : unmarked K m' ≤ unmarked K m := by
  unfold unmarked
  apply List.Sublist.length_le
  apply List.monotone_filter_right
  intro x hx
  simp only [decide_eq_true_eq] at hx ⊢
  exact fun hm => hx (h x hm)

theorem unmarked_lt {K m m' : List Str} (h : ∀ x ∈ m, x ∈ m') {k : Str} (hk : k ∈ K) (hkm : k ∉ m) (hkm' : k ∈ m') :
    unmarked K m' < unmarked K m := by
  unfold unmarked
  have hsub : (K.filter (fun k => decide (k ∉ m'))).Sublist ((K.filter (fun k => decide (k ∉ m))).erase k) := by
    have e : K.filter (fun k => decide (k ∉ m')) =
        (K.filter (fun k => decide (k ∉ m))).filter (fun k => decide (k ∉ m')) := by
      rw [List.filter_filter]
      apply List.filter_congr
      intro x _
      by_cases hx : x ∈ m'
      · simp [hx]
      · have : x ∉ m := fun c => hx (h x c)
        simp [hx, this]
    rw [e]
    have hk2 : ¬ (decide (k ∉ m') = true) := by simpa using hkm'
    have : (K.filter (fun k => decide (k ∉ m))).filter (fun k => decide (k ∉ m')) =
        ((K.filter (fun k => decide (k ∉ m))).erase k).filter (fun k => decide (k ∉ m')) := by
      generalize K.filter (fun k => decide (k ∉ m)) = l
      induction l with
      | nil => rfl
      | cons a l ih =>
        by_cases ha : a = k
        · subst ha
          rw [List.erase_cons_head]
          simp only [List.filter_cons, hk2]
          rfl
        · rw [List.erase_cons_tail (by simpa using ha), List.filter_cons, List.filter_cons, ih]
    rw [this]
    exact List.filter_sublist
  have hlen := hsub.length_le
  have hmem : k ∈ K.filter (fun k => decide (k ∉ m)) := List.mem_filter.2 ⟨hk, by simpa using hkm⟩
  rw [List.length_erase_of_mem hmem] at hlen
  have : 0 < (K.filter (fun k => decide (k ∉ m))).length := List.length_pos_of_mem hmem
  omega

theorem markNew_unmarked {K m m1 : List Str} {l new : List (Str × Str)} (h : markNew m l = (m1, new))
    (hK : ∀ x ∈ l, x.2 ∈ K) (hm : m.Nodup) (hne : new ≠ []) : unmarked K m1 < unmarked K m := by
  obtain ⟨h1, h2, h3, h4⟩ := markNew_spec h
  obtain ⟨x, hx⟩ := List.exists_mem_of_ne_nil _ hne
  have hn := h4 hm
  rw [h1, List.nodup_append] at hn
  have hxm : x.2 ∈ new.map Prod.snd := List.mem_map_of_mem hx
  refine unmarked_lt (k := x.2) (fun y hy => by rw [h1]; exact List.mem_append_left _ hy) (hK x (h2 x hx)) ?_ (h3 x (h2 x hx))
  intro hc
  exact hn.2.2 _ hc _ hxm rfl

theorem Walks.exists {nb : Str → List (Str × Str)} {K : List Str} (hK : ∀ k, ∀ x ∈ nb k, x.2 ∈ K) :
    ∀ (N : Nat) (y : Str) (rest : List (Str × Str)) (m : List Str), m.Nodup → unmarked K m ≤ N →
      ∃ pre post m', Walks nb y rest m pre post m' := by
  intro N
  induction N with
  | zero =>
    intro y rest
    induction rest with
    | nil => intro m _ _; exact ⟨[], [], m, .nil y m⟩
    | cons sc rest ih =>
      intro m hm hN
      obtain ⟨s, c⟩ := sc
      rcases hmk : markNew m (nb c) with ⟨m1, new⟩
      have hnew : new = [] := by
        by_contra hne
        have := markNew_unmarked hmk (hK c) hm hne
        omega
      subst hnew
      have hm1 : m1 = m := by simpa using (markNew_spec hmk).1
      subst hm1
      obtain ⟨pre, post, m', hw⟩ := ih m1 hm hN
      exact ⟨_, _, m', .cons hmk (.nil c m1) hw⟩
  | succ N ihN =>
    intro y rest
    induction rest with
    | nil => intro m _ _; exact ⟨[], [], m, .nil y m⟩
    | cons sc rest ih =>
      intro m hm hN
      obtain ⟨s, c⟩ := sc
      rcases hmk : markNew m (nb c) with ⟨m1, new⟩
      have hm1 := (markNew_spec hmk).1
      by_cases hne : new = []
      · subst hne
        have hm1 : m1 = m := by simpa using hm1
        subst hm1
        obtain ⟨pre, post, m', hw⟩ := ih m1 hm hN
        exact ⟨_, _, m', .cons hmk (.nil c m1) hw⟩
      · have hlt := markNew_unmarked hmk (hK c) hm hne
        obtain ⟨pre1, post1, m2, hw1⟩ := ihN c new m1 ((markNew_spec hmk).2.2.2 hm) (by omega)
        have hmono : ∀ x ∈ m, x ∈ m2 := fun x hx => hw1.mono x (by rw [hm1]; exact List.mem_append_left _ hx)
        obtain ⟨pre2, post2, m3, hw2⟩ := ih m2 (hw1.nodup ((markNew_spec hmk).2.2.2 hm)) (le_trans (unmarked_mono hmono) hN)
        exact ⟨_, _, m3, .cons hmk hw1 hw2⟩

/-! ### the program follows the walk -/

/-- messages towards the start, in list order -/
def passUp (l : List Msg) (jt : JoinTree) : Py JoinTree := l.foldlM (fun jt e => passSingleMessage jt e.c e.s e.p) jt

/-- messages away from the start, in list order -/
def passDown (l : List Msg) (jt : JoinTree) : Py JoinTree := l.foldlM (fun jt e => passSingleMessage jt e.p e.s e.c) jt

theorem passSingle_frame {jt jt' : JoinTree} {x s y : Str} (h : passSingleMessage jt x s y = .ok jt') :
    ∃ p, jt' = { jt with potentials := p } := by
  unfold passSingleMessage at h
  simp only [bind, Except.bind] at h
  split at h
  · cases h
  · split at h
    · cases h
    · split at h
      · cases h
      · split at h
        · cases h
        · split at h
          · cases h
          · injection h with h
            exact ⟨_, h.symm⟩

theorem pass_frame {f : JoinTree → Msg → Py JoinTree} (hf : ∀ jt e jt', f jt e = .ok jt' → ∃ p, jt' = { jt with potentials := p }) :
    ∀ (l : List Msg) (jt jt' : JoinTree), l.foldlM f jt = .ok jt' → ∃ p, jt' = { jt with potentials := p }
  | [], jt, jt', h => by
      injection h with h
      exact ⟨jt.potentials, by rw [← h]⟩
  | e :: l, jt, jt', h => by
      rw [List.foldlM_cons] at h
      cases h1 : f jt e with
      | error err => rw [h1] at h; cases h
      | ok j1 =>
        rw [h1] at h
        obtain ⟨p1, rfl⟩ := hf _ _ _ h1
        obtain ⟨p2, h2⟩ := pass_frame hf l _ _ h
        exact ⟨p2, h2⟩

theorem passUp_frame {l : List Msg} {jt jt' : JoinTree} (h : passUp l jt = .ok jt') :
    ∃ p, jt' = { jt with potentials := p } := pass_frame (fun _ _ _ h => passSingle_frame h) l jt jt' h

theorem passDown_frame {l : List Msg} {jt jt' : JoinTree} (h : passDown l jt = .ok jt') :
    ∃ p, jt' = { jt with potentials := p } := pass_frame (fun _ _ _ h => passSingle_frame h) l jt jt' h

theorem passUp_append (a b : List Msg) (jt : JoinTree) : passUp (a ++ b) jt = passUp a jt >>= passUp b := by
  unfold passUp; rw [List.foldlM_append]

theorem passDown_append (a b : List Msg) (jt : JoinTree) : passDown (a ++ b) jt = passDown a jt >>= passDown b := by
  unfold passDown; rw [List.foldlM_append]

theorem neighboring_frame (js : SetIter Str) (jt : JoinTree) (p : Dict Str Potential) :
    neighboringCliques js { jt with potentials := p } = neighboringCliques js jt := rfl

theorem Walks.collect (js : SetIter Str) {K : List Str} {nb : Str → List (Str × Str)} (hK : ∀ k, ∀ x ∈ nb k, x.2 ∈ K)
    {y : Str} {rest : List (Str × Str)} {m m' : List Str} {pre post : List Msg}
    (h : Walks nb y rest m pre post m') : ∀ (jt : JoinTree), neighboringCliques js jt = nb → m.Nodup →
      ∀ fuel, unmarked K m < fuel →
      rest.foldlM (fun st sc => collectWalk js fuel y sc.1 sc.2 st) (m, jt) =
        (passUp post jt).map (fun j => (m', j)) := by
  induction h with
  | nil y m => intro jt _ _ fuel _; rfl
  | @cons y s c rest m m1 m2 m3 new pre1 post1 pre2 post2 hm h1 h2 ih1 ih2 =>
    intro jt hnb hn fuel hf
    obtain ⟨fuel, rfl⟩ : ∃ f, fuel = f + 1 := ⟨fuel - 1, by omega⟩
    have hm1 := (markNew_spec hm).1
    have hmono : ∀ x ∈ m, x ∈ m2 := fun x hx => h1.mono x (by rw [hm1]; exact List.mem_append_left _ hx)
    have hn1 := (markNew_spec hm).2.2.2 hn
    have ih1' : new.foldlM (fun st sc => collectWalk js fuel c sc.1 sc.2 st) (m1, jt) =
        (passUp post1 jt).map (fun j => (m2, j)) := by
      by_cases hne : new = []
      · subst hne
        cases h1
        rfl
      · apply ih1 jt hnb hn1
        have := markNew_unmarked hm (hK c) hn hne
        omega
    rw [List.foldlM_cons, passUp_append]
    have hw : collectWalk js (fuel + 1) y s c (m, jt) =
        (passUp post1 jt >>= fun j => passSingleMessage j c s y).map (fun j => (m2, j)) := by
      rw [collectWalk]
      simp only [hnb, hm]
      rw [ih1']
      cases h3 : passUp post1 jt with
      | error e => rfl
      | ok j =>
        show (do let jt ← passSingleMessage j c s y; Except.ok (m2, jt)) = _
        rfl
    show (collectWalk js (fuel + 1) y s c (m, jt) >>= _) = _
    rw [hw]
    cases h3 : passUp post1 jt with
    | error e => rfl
    | ok j =>
      show ((passSingleMessage j c s y).map (fun j => (m2, j)) >>= _) = (passUp (⟨y, s, c⟩ :: post2) j).map _
      unfold passUp
      rw [List.foldlM_cons]
      show _ = Except.map _ (passSingleMessage j c s y >>= _)
      cases h4 : passSingleMessage j c s y with
      | error e => rfl
      | ok j2 =>
        have hnb2 : neighboringCliques js j2 = nb := by
          obtain ⟨p1, rfl⟩ := passUp_frame h3
          obtain ⟨p2, rfl⟩ := passSingle_frame h4
          exact hnb
        exact ih2 j2 hnb2 (h1.nodup hn1) (fuel + 1) (lt_of_le_of_lt (unmarked_mono hmono) hf)

theorem Walks.distribute (js : SetIter Str) {K : List Str} {nb : Str → List (Str × Str)} (hK : ∀ k, ∀ x ∈ nb k, x.2 ∈ K)
    {y : Str} {rest : List (Str × Str)} {m m' : List Str} {pre post : List Msg}
    (h : Walks nb y rest m pre post m') : ∀ (jt : JoinTree), neighboringCliques js jt = nb → m.Nodup →
      ∀ fuel, unmarked K m < fuel →
      rest.foldlM (fun st sc => do
        let jt ← passSingleMessage st.2 y sc.1 sc.2
        distributeWalk js fuel sc.2 (st.1, jt)) (m, jt) =
        (passDown pre jt).map (fun j => (m', j)) := by
  induction h with
  | nil y m => intro jt _ _ fuel _; rfl
  | @cons y s c rest m m1 m2 m3 new pre1 post1 pre2 post2 hm h1 h2 ih1 ih2 =>
    intro jt hnb hn fuel hf
    obtain ⟨fuel, rfl⟩ : ∃ f, fuel = f + 1 := ⟨fuel - 1, by omega⟩
    have hm1 := (markNew_spec hm).1
    have hmono : ∀ x ∈ m, x ∈ m2 := fun x hx => h1.mono x (by rw [hm1]; exact List.mem_append_left _ hx)
    have hn1 := (markNew_spec hm).2.2.2 hn
    have ih1' : ∀ jt : JoinTree, neighboringCliques js jt = nb → distributeWalk js (fuel + 1) c (m, jt) =
        (passDown pre1 jt).map (fun j => (m2, j)) := by
      intro jt hnb
      rw [distributeWalk]
      simp only [hnb, hm]
      by_cases hne : new = []
      · subst hne
        cases h1
        rfl
      · apply ih1 jt hnb hn1
        have := markNew_unmarked hm (hK c) hn hne
        omega
    rw [List.foldlM_cons]
    show ((passSingleMessage jt y s c >>= fun jt => distributeWalk js (fuel + 1) c (m, jt)) >>= _) = _
    unfold passDown
    rw [List.foldlM_cons]
    show _ = Except.map _ (passSingleMessage jt y s c >>= _)
    cases h3 : passSingleMessage jt y s c with
    | error e => rfl
    | ok j =>
      have hnb1 : neighboringCliques js j = nb := by
        obtain ⟨p1, rfl⟩ := passSingle_frame h3
        exact hnb
      show (distributeWalk js (fuel + 1) c (m, j) >>= _) = Except.map _ (passDown (pre1 ++ pre2) j)
      rw [ih1' j hnb1, passDown_append]
      cases h4 : passDown pre1 j with
      | error e => rfl
      | ok j2 =>
        have hnb2 : neighboringCliques js j2 = nb := by
          obtain ⟨p2, rfl⟩ := passDown_frame h4
          exact hnb1
        exact ih2 j2 hnb2 (h1.nodup hn1) (fuel + 1) (lt_of_le_of_lt (unmarked_mono hmono) hf)

/-- `propagate` from a start whose neighbors are distinct passes the messages of one walk up and then down -/
theorem propagate_walk (js : SetIter Str) (jt : JoinTree) {x : Clique} {K : List Str}
    (hx : (sortBy (fun a b => strLe (Clique.id a) (Clique.id b)) jt.getCliques).head? = some x)
    (hK : ∀ k, ∀ z ∈ neighboringCliques js jt k, z.2 ∈ K) (hKlen : K.length ≤ jt.nodes.length) (hxK : x.id ∈ K)
    (hn : ((neighboringCliques js jt x.id).map Prod.snd).Nodup)
    (hxn : ∀ z ∈ neighboringCliques js jt x.id, z.2 ≠ x.id) :
    ∃ pre post m', Walks (neighboringCliques js jt) x.id (neighboringCliques js jt x.id)
        (x.id :: (neighboringCliques js jt x.id).map Prod.snd) pre post m' ∧
      propagate js jt = passUp post jt >>= passDown pre := by
  set nb := neighboringCliques js jt with hnb
  set m := x.id :: (nb x.id).map Prod.snd with hm
  have hmn : m.Nodup := by
    rw [hm, List.nodup_cons]
    refine ⟨?_, hn⟩
    intro hc
    obtain ⟨z, hz, e⟩ := List.mem_map.1 hc
    exact hxn z hz e
  obtain ⟨pre, post, m', hw⟩ := Walks.exists (nb := nb) hK _ x.id (nb x.id) m hmn (le_refl _)
  refine ⟨pre, post, m', hw, ?_⟩
  have hfuel : unmarked K m < jt.nodes.length := by
    refine lt_of_lt_of_le ?_ hKlen
    have := unmarked_lt (K := K) (m := []) (m' := m) (by simp) hxK (by simp) (by simp [hm])
    refine lt_of_lt_of_le this ?_
    unfold unmarked
    exact List.length_filter_le _ _
  unfold propagate
  rw [hx]
  simp only
  have hc : Propagator.collect js jt.nodes.length jt x.id = passUp post jt := by
    unfold Propagator.collect
    have := hw.collect js hK jt rfl hmn _ hfuel
    simp only [← hnb, ← hm]
    rw [this]
    cases passUp post jt <;> rfl
  rw [hc]
  cases h1 : passUp post jt with
  | error e => rfl
  | ok j =>
    obtain ⟨p, rfl⟩ := passUp_frame h1
    show Propagator.distribute js _ _ x.id = passDown pre _
    unfold Propagator.distribute
    have := hw.distribute js hK { jt with potentials := p } rfl hmn _ hfuel
    have e : neighboringCliques js { jt with potentials := p } = nb := rfl
    simp only [e, ← hm]
    rw [this]
    cases passDown pre { jt with potentials := p } <;> rfl

end PyBBN
