import Verif.Model.Limit
import Verif.Proofs.Apply
import Verif.Proofs.Orders
import Verif.Proofs.TreeShape

/-! Runs under a recursion limit: either they raise `RecursionError` or they do what the unlimited program does. -/

namespace PyBBN
open Propagator InferenceController

/-- the limited run raises `RecursionError` or agrees with the unlimited one -/
def Cut {α : Type} (x y : Py α) : Prop := x = .error .recursionError ∨ x = y

theorem Cut.rfl' {α : Type} (x : Py α) : Cut x x := Or.inr rfl

theorem Cut.bind {α β : Type} {x y : Py α} {f g : α → Py β} (h : Cut x y) (hf : ∀ a, y = .ok a → Cut (f a) (g a)) :
    Cut (x >>= f) (y >>= g) := by
  rcases h with h | h
  · left; rw [h]; rfl
  · subst h
    cases hx : x with
    | error e => right; rfl
    | ok a => exact hf a hx

theorem Cut.foldlM {σ α : Type} {f g : σ → α → Py σ} (h : ∀ st a, Cut (f st a) (g st a)) :
    ∀ (l : List α) (st : σ), Cut (l.foldlM f st) (l.foldlM g st)
  | [], _ => Or.inr rfl
  | a :: l, st => by
      rw [List.foldlM_cons, List.foldlM_cons]
      exact (h st a).bind (fun st' _ => Cut.foldlM h l st')

/-! ### searching paths -/

section
variable {K : Type} [DecidableEq K] (succ : K → List K) (stop : K)

/-- one step of the inner loop of `dfsFindL` -/
def dfsStepL (lim : Nat) (acc : Bool × List K) (c : K) : Py (Bool × List K) :=
  if acc.1 then .ok acc else if c ∈ acc.2 then .ok acc else dfsFindL succ stop lim acc.2 c

theorem dfsFindL_succ (lim : Nat) (seen : List K) (i : K) : dfsFindL succ stop (lim + 1) seen i =
    if stop ∈ succ i then .ok (true, seen) else (succ i).foldlM (dfsStepL succ stop lim) (false, seen ++ [i]) := rfl

theorem dfsL_cut : ∀ (lim f : Nat), lim ≤ f → ∀ (seen : List K) (i : K),
    Cut (dfsFindL succ stop lim seen i) (.ok (dfsFind succ stop f seen i)) := by
  intro lim
  induction lim with
  | zero => intro f _ seen i; exact Or.inl rfl
  | succ lim ih =>
    intro f hf seen i
    obtain ⟨f, rfl⟩ : ∃ g, f = g + 1 := ⟨f - 1, by omega⟩
    rw [dfsFindL_succ, dfsFind_succ]
    split
    · exact Or.inr rfl
    · have key : ∀ (cs : List K) (acc : Bool × List K), Cut (cs.foldlM (dfsStepL succ stop lim) acc)
          (.ok (cs.foldl (dfsStep succ stop f) acc)) := by
        intro cs
        induction cs with
        | nil => intro acc; exact Or.inr rfl
        | cons c cs ih2 =>
          intro acc
          rw [List.foldlM_cons, List.foldl_cons]
          have h1 : Cut (dfsStepL succ stop lim acc c) (.ok (dfsStep succ stop f acc c)) := by
            unfold dfsStepL dfsStep
            split
            · exact Or.inr rfl
            · split
              · exact Or.inr rfl
              · exact ih f (by omega) _ _
          rcases h1 with h1 | h1
          · left; rw [h1]; rfl
          · rw [h1]; exact ih2 _
      exact key _ _

theorem dfsL_enough (U : Finset K) (hU : ∀ u ∈ U, ∀ v ∈ succ u, v ∈ U) : ∀ (lim : Nat) (seen : List K) (i : K),
    (U \ seen.toFinset).card ≤ lim → i ∈ U → i ∉ seen →
    ∃ r, dfsFindL succ stop lim seen i = .ok r ∧ ∀ x ∈ seen, x ∈ r.2 := by
  intro lim
  induction lim with
  | zero =>
    intro seen i hc hi hs
    have : i ∈ U \ seen.toFinset := by simp [hi, hs]
    rw [Nat.le_zero, Finset.card_eq_zero] at hc
    rw [hc] at this
    simp at this
  | succ lim ih =>
    intro seen i hc hi hs
    rw [dfsFindL_succ]
    split
    · exact ⟨_, rfl, fun x hx => hx⟩
    · have key : ∀ (cs : List K) (acc : Bool × List K), (∀ c ∈ cs, c ∈ U) → (∀ x ∈ seen ++ [i], x ∈ acc.2) →
          ∃ r, cs.foldlM (dfsStepL succ stop lim) acc = .ok r ∧ ∀ x ∈ seen, x ∈ r.2 := by
        intro cs
        induction cs with
        | nil => intro acc _ ha; exact ⟨acc, rfl, fun x hx => ha x (List.mem_append_left _ hx)⟩
        | cons c cs ih2 =>
          intro acc hcs ha
          rw [List.foldlM_cons]
          have h1 : ∃ r, dfsStepL succ stop lim acc c = .ok r ∧ ∀ x ∈ acc.2, x ∈ r.2 := by
            unfold dfsStepL
            split
            · exact ⟨_, rfl, fun x hx => hx⟩
            · split
              · exact ⟨_, rfl, fun x hx => hx⟩
              · refine ih _ _ ?_ (hcs c List.mem_cons_self) ‹_›
                have hlt : U \ acc.2.toFinset ⊂ U \ seen.toFinset := by
                  rw [Finset.ssubset_iff_of_subset (by
                    intro x hx
                    simp only [Finset.mem_sdiff, List.mem_toFinset] at hx ⊢
                    exact ⟨hx.1, fun hxs => hx.2 (ha x (List.mem_append_left _ hxs))⟩)]
                  refine ⟨i, by simp [hi, hs], ?_⟩
                  simp only [Finset.mem_sdiff, List.mem_toFinset, not_and, not_not]
                  exact fun _ => ha i (by simp)
                have := Finset.card_lt_card hlt
                omega
          obtain ⟨r, e, hr⟩ := h1
          rw [e]
          exact ih2 r (fun c' hc' => hcs c' (List.mem_cons_of_mem _ hc')) (fun x hx => hr x (ha x hx))
      exact key _ _ (fun c hc' => hU i hi c hc') (fun x hx => hx)

theorem pathExistsL_cut (U : List K) (hU : ∀ u ∈ U, ∀ v ∈ succ u, v ∈ U) (lim fuel : Nat) (start : K) (hs : start ∈ U)
    (hf : U.length ≤ fuel) : Cut (pathExistsL succ lim start stop) (.ok (pathExists succ fuel start stop)) := by
  have h1 := pathExists_iff' succ stop U hU fuel start hs hf
  have h2 := pathExists_iff' succ stop U hU (max fuel lim) start hs (le_trans hf (le_max_left _ _))
  have e : pathExists succ fuel start stop = pathExists succ (max fuel lim) start stop := by
    rw [Bool.eq_iff_iff, h1, h2]
  rw [e]
  unfold pathExistsL pathExists
  split
  · exact Or.inr rfl
  · rcases dfsL_cut succ stop lim (max fuel lim) (le_max_right _ _) [] start with h | h
    · left; rw [h]; rfl
    · right; rw [h]; rfl

theorem pathExistsL_enough (U : List K) (hU : ∀ u ∈ U, ∀ v ∈ succ u, v ∈ U) (lim : Nat) (start : K) (hs : start ∈ U)
    (hf : U.length ≤ lim) : ∃ r, pathExistsL succ lim start stop = .ok r := by
  unfold pathExistsL
  split
  · exact ⟨_, rfl⟩
  · obtain ⟨r, e, _⟩ := dfsL_enough succ stop U.toFinset (by simpa using hU) lim [] start
      (le_trans (by simpa using List.toFinset_card_le U) hf) (by simpa using hs) (by simp)
    rw [e]
    exact ⟨_, rfl⟩

end

/-! ### building the tree -/

section
variable {all : List Clique} {pres : Clique → Prop} {T : List SepSet} {jt : JoinTree}

theorem JTree.closed (h : JTree all pres T jt) (js : SetIter Str) (k : Str) : ∀ u ∈ k :: Dict.keys jt.nodes,
    ∀ v ∈ JoinTree.nbrs js jt.edges.length jt u, v ∈ k :: Dict.keys jt.nodes := by
  intro u _ v hv
  unfold JoinTree.nbrs at hv
  rw [js.mem] at hv
  exact List.mem_cons_of_mem _ (h.mem_keys hv).2

theorem JTree.addEdgeL_cut (h : JTree all pres T jt) (lim : Nat) (js : SetIter Str) (s : SepSet) :
    Cut (jt.addEdgeL lim js s) (.ok (jt.addEdge js s)) := by
  unfold JoinTree.addEdgeL JoinTree.shouldAddL JoinTree.addEdge JoinTree.shouldAdd
  split
  · exact Or.inr rfl
  · have := pathExistsL_cut (JoinTree.nbrs js jt.edges.length jt) s.right.id _ (h.closed js s.left.id) lim (jt.nodes.length + 1) s.left.id
      List.mem_cons_self (by simp [Dict.keys])
    rcases this with e | e
    · left; rw [e]; rfl
    · right
      rw [e]
      cases pathExists (JoinTree.nbrs js jt.edges.length jt) (jt.nodes.length + 1) s.left.id s.right.id <;> rfl

theorem JTree.addEdgeL_enough (h : JTree all pres T jt) (lim : Nat) (js : SetIter Str) (s : SepSet)
    (hl : jt.nodes.length + 1 ≤ lim) : jt.addEdgeL lim js s = .ok (jt.addEdge js s) := by
  rcases h.addEdgeL_cut lim js s with e | e
  · exfalso
    unfold JoinTree.addEdgeL JoinTree.shouldAddL at e
    split at e
    · cases e
    · obtain ⟨r, hr⟩ := pathExistsL_enough (JoinTree.nbrs js jt.edges.length jt) s.right.id _ (h.closed js s.left.id) lim s.left.id
        List.mem_cons_self (by simpa [Dict.keys] using hl)
      rw [hr] at e
      cases r <;> cases e
  · exact e

/-- the cliques and separation sets of a tree in the making -/
theorem JTree.length_le (hf : CFam all) (h : JTree all pres T jt) (hT : Forest sl sr T) : jt.nodes.length ≤ 2 * all.length := by
  have e : ∀ l : Dict Str JNode, l.length = (l.filterMap (fun kv => match kv.2 with | .clique c => some c | .sepset _ => none)).length +
      (l.filterMap (fun kv => match kv.2 with | .clique _ => none | .sepset s => some s)).length := by
    intro l
    induction l with
    | nil => rfl
    | cons kv l ih =>
      obtain ⟨k, n⟩ := kv
      cases n with
      | clique c => simp only [List.filterMap_cons, List.length_cons]; omega
      | sepset c => simp only [List.filterMap_cons, List.length_cons]; omega
  have e1 : jt.nodes.length = jt.getCliques.length + jt.getSepSets.length := e jt.nodes
  have h1 : jt.getCliques.length ≤ all.length := by
    refine (List.Nodup.subperm (List.Nodup.of_map _ h.cliques_nodup) ?_).length_le
    intro c hc
    exact h.sub c ((h.mem_getCliques c).1 hc)
  have h2 : jt.getSepSets.length = T.length := by
    refine List.Perm.length_eq ?_
    rw [List.perm_ext_iff_of_nodup (List.Nodup.of_map _ h.sepSets_nodup) hT.nodup]
    exact h.mem_getSepSets
  have h3 := Forest.count (S := (all.map Clique.fs).toFinset) hT (by
    intro s hs
    have hg := h.good s hs
    simp only [List.mem_toFinset]
    exact ⟨List.mem_map_of_mem hg.left, List.mem_map_of_mem hg.right⟩)
  have h4 : (all.map Clique.fs).toFinset.card ≤ all.length := by
    refine le_trans (List.toFinset_card_le _) (by simp)
  omega

end

theorem addEdgesL_cut (lim : Nat) (js : SetIter Str) {all : List Clique} (hf : CFam all) {pres : Clique → Prop} :
    ∀ (es : List SepSet) (jt : JoinTree) (T : List SepSet), JTree all pres T jt → Forest sl sr T → (∀ s ∈ es, GoodSep all s) →
    (∀ s ∈ es, pres s.left ∧ pres s.right) →
    Cut (es.foldlM (fun jt s => jt.addEdgeL lim js s) jt) (.ok (es.foldl (fun jt s => jt.addEdge js s) jt)) ∧
    (2 * all.length + 1 ≤ lim → es.foldlM (fun jt s => jt.addEdgeL lim js s) jt = .ok (es.foldl (fun jt s => jt.addEdge js s) jt))
  | [], jt, T, _, _, _, _ => ⟨Or.inr rfl, fun _ => rfl⟩
  | s :: es, jt, T, h, hT, hg, hp => by
      rw [List.foldlM_cons, List.foldl_cons]
      obtain ⟨T1, h1, k1⟩ := addEdges_spec js hf [s] jt T h (fun t ht => hg t (by simp at ht; simp [ht]))
        (fun t ht => hp t (by simp at ht; simp [ht]))
      rw [List.foldl_cons, List.foldl_nil] at h1
      obtain ⟨i1, i2⟩ := addEdgesL_cut lim js hf es (jt.addEdge js s) T1 h1 (k1.forest hT) (fun t ht => hg t (List.mem_cons_of_mem _ ht))
        (fun t ht => hp t (List.mem_cons_of_mem _ ht))
      constructor
      · rcases h.addEdgeL_cut lim js s with e | e
        · left; rw [e]; rfl
        · rw [e]; exact i1
      · intro hl
        rw [h.addEdgeL_enough lim js s (by have := h.length_le hf hT; omega)]
        exact i2 hl

theorem transformL_cut (lim : Nat) (js : SetIter Str) {cs : List Clique} (hf : CFam cs) :
    Cut (Transformer.transformL lim js cs) (.ok (Transformer.transform js cs)) ∧
    (2 * cs.length + 1 ≤ lim → Transformer.transformL lim js cs = .ok (Transformer.transform js cs)) := by
  obtain ⟨hgood, _⟩ := getSepSets_good hf
  have h0 := (addCliques_spec hf cs {} _ (empty_jtree cs) (fun c hc => hc)).congr (pres' := fun c => c ∈ cs) (by simp)
  exact addEdgesL_cut lim js hf (Transformer.getSepSets cs) _ [] h0 trivial hgood
    (fun s hs => ⟨(hgood s hs).left, (hgood s hs).right⟩)

/-! ### propagation -/

theorem collectWalk_cut (js : SetIter Str) : ∀ (f f' : Nat), f ≤ f' → ∀ (x s y : Str) (st : List Str × JoinTree),
    Cut (collectWalk js f x s y st) (collectWalk js f' x s y st) := by
  intro f
  induction f with
  | zero => intro f' _ x s y st; exact Or.inl rfl
  | succ f ih =>
    intro f' hf x s y st
    obtain ⟨f', rfl⟩ : ∃ g, f' = g + 1 := ⟨f' - 1, by omega⟩
    rw [collectWalk, collectWalk]
    exact (Cut.foldlM (fun st sc => ih f' (by omega) _ _ _ st) _ _).bind (fun a _ => Or.inr rfl)

theorem collect_cut (js : SetIter Str) {f f' : Nat} (h : f ≤ f') (jt : JoinTree) (x : Str) :
    Cut (Propagator.collect js f jt x) (Propagator.collect js f' jt x) := by
  unfold Propagator.collect
  exact (Cut.foldlM (fun st sc => collectWalk_cut js f f' h _ _ _ st) _ _).bind (fun a _ => Or.inr rfl)

theorem distributeWalk_cut (js : SetIter Str) : ∀ (f f' : Nat), f ≤ f' → ∀ (y : Str) (st : List Str × JoinTree),
    Cut (distributeWalk js f y st) (distributeWalk js f' y st) := by
  intro f
  induction f with
  | zero => intro f' _ y st; exact Or.inl rfl
  | succ f ih =>
    intro f' hf y st
    obtain ⟨f', rfl⟩ : ∃ g, f' = g + 1 := ⟨f' - 1, by omega⟩
    rw [distributeWalk, distributeWalk]
    exact Cut.foldlM (fun st sc => (Cut.rfl' _).bind (fun jt _ => ih f' (by omega) _ _)) _ _

theorem distribute_cut (js : SetIter Str) {f f' : Nat} (h : f ≤ f') (jt : JoinTree) (x : Str) :
    Cut (Propagator.distribute js f jt x) (Propagator.distribute js f' jt x) := by
  unfold Propagator.distribute
  exact (Cut.foldlM (fun st sc => (Cut.rfl' _).bind (fun jt _ => distributeWalk_cut js f f' h _ _)) _ _).bind (fun a _ => Or.inr rfl)

/-- a run that ends does not depend on the limit as long as it fits -/
theorem cut_any {α : Type} {F : Nat → Py α} (hF : ∀ f f', f ≤ f' → Cut (F f) (F f')) {N : Nat} {r : α} (h : F N = .ok r) (f : Nat) :
    Cut (F f) (.ok r) ∧ (N ≤ f → F f = .ok r) := by
  have h1 : N ≤ f → F f = .ok r := by
    intro hf
    rcases hF N f hf with e | e
    · rw [h] at e; cases e
    · rw [← e, h]
  refine ⟨?_, h1⟩
  rcases Nat.le_total f N with hf | hf
  · rw [← h]; exact hF f N hf
  · exact Or.inr (h1 hf)

/-- `b` can be reached from `a` in at most `n` steps -/
inductive WithinSteps (nb : Str → List (Str × Str)) : Nat → Str → Str → Prop
  | refl (n : Nat) (a : Str) : WithinSteps nb n a a
  | step {n : Nat} {a b c : Str} {s : Str} (h : (s, b) ∈ nb a) (hn : WithinSteps nb n b c) : WithinSteps nb (n + 1) a c

theorem WithinSteps.mono {nb : Str → List (Str × Str)} {n m : Nat} {a b : Str} (h : WithinSteps nb n a b) (hm : n ≤ m) : WithinSteps nb m a b := by
  induction h generalizing m with
  | refl n a => exact .refl m a
  | step h hn ih =>
    obtain ⟨m, rfl⟩ : ∃ k, m = k + 1 := ⟨m - 1, by omega⟩
    exact .step h (ih (by omega))

/-- what a walk that ends has marked: everything new is at most as far as the calls are nested, and has all its neighbors marked -/
structure Reached (nb : Str → List (Str × Str)) (f : Nat) (y : Str) (m m' : List Str) (done : List Str) : Prop where
  mono : ∀ k ∈ m, k ∈ m'
  near : ∀ k ∈ m', k ∈ m ∨ WithinSteps nb f y k
  closed : ∀ k ∈ m', k ∈ m ∨ ∀ z ∈ nb k, z.2 ∈ m'
  done : ∀ c ∈ done, ∀ z ∈ nb c, z.2 ∈ m'

theorem collectWalk_reached (js : SetIter Str) {nb : Str → List (Str × Str)} : ∀ (f : Nat) (x s y : Str) (m : List Str) (jt : JoinTree)
    (m' : List Str) (jt' : JoinTree), neighboringCliques js jt = nb → collectWalk js f x s y (m, jt) = .ok (m', jt') →
    (∃ p, jt' = { jt with potentials := p }) ∧ Reached nb f y m m' [y] := by
  intro f
  induction f with
  | zero => intro x s y m jt m' jt' _ h; cases h
  | succ f ih =>
    intro x s y m jt m' jt' hnb h
    rw [collectWalk] at h
    simp only [hnb] at h
    rcases hmk : markNew m (nb y) with ⟨m1, new⟩
    rw [hmk] at h
    obtain ⟨⟨m2, j2⟩, h1, h2⟩ := bind_ok h
    obtain ⟨j3, h3, h4⟩ := bind_ok h2
    injection h4 with h4
    injection h4 with h4 h5
    subst h4 h5
    have key : ∀ (l : List (Str × Str)) (m : List Str) (jt : JoinTree) (m' : List Str) (jt' : JoinTree), neighboringCliques js jt = nb →
        (∀ z ∈ l, z ∈ nb y) → l.foldlM (fun st sc => collectWalk js f y sc.1 sc.2 st) (m, jt) = .ok (m', jt') →
        (∃ p, jt' = { jt with potentials := p }) ∧ Reached nb (f + 1) y m m' (l.map Prod.snd) := by
      intro l
      induction l with
      | nil =>
        intro m jt m' jt' _ _ h
        injection h with h
        injection h with h h'
        subst h h'
        exact ⟨⟨jt.potentials, rfl⟩, fun k hk => hk, fun k hk => Or.inl hk, fun k hk => Or.inl hk, by simp⟩
      | cons z l ih2 =>
        intro m jt m' jt' hnb hl h
        rw [List.foldlM_cons] at h
        obtain ⟨⟨m1, j1⟩, h1, h2⟩ := bind_ok h
        obtain ⟨⟨p, e⟩, r1⟩ := ih _ _ _ _ _ _ _ hnb h1
        obtain ⟨⟨p', e'⟩, r2⟩ := ih2 m1 j1 m' jt' (by rw [e]; exact hnb) (fun z hz => hl z (List.mem_cons_of_mem _ hz)) h2
        refine ⟨⟨p', by rw [e', e]⟩, fun k hk => r2.mono k (r1.mono k hk), ?_, ?_, ?_⟩
        · intro k hk
          rcases r2.near k hk with h3 | h3
          · rcases r1.near k h3 with h4 | h4
            · exact Or.inl h4
            · exact Or.inr (.step (s := z.1) (hl z List.mem_cons_self) h4)
          · exact Or.inr h3
        · intro k hk
          rcases r2.closed k hk with h3 | h3
          · rcases r1.closed k h3 with h4 | h4
            · exact Or.inl h4
            · exact Or.inr (fun w hw => r2.mono _ (h4 w hw))
          · exact Or.inr h3
        · intro c hc w hw
          rw [List.map_cons, List.mem_cons] at hc
          rcases hc with rfl | hc
          · exact r2.mono _ (r1.done _ (by simp) w hw)
          · exact r2.done c hc w hw
    obtain ⟨q1, q2, q3, _⟩ := markNew_spec hmk
    obtain ⟨⟨p, e⟩, r⟩ := key new m1 jt m2 j2 hnb q2 h1
    obtain ⟨p', e'⟩ := passSingle_frame h3
    have hnew : ∀ k ∈ m1, k ∈ m ∨ ∃ z ∈ new, z.2 = k := by
      intro k hk
      rw [q1, List.mem_append] at hk
      rcases hk with hk | hk
      · exact Or.inl hk
      · exact Or.inr (List.mem_map.1 hk)
    refine ⟨⟨p', by rw [e', e]⟩, ?_, ?_, ?_, ?_⟩
    · intro k hk
      exact r.mono k (by rw [q1]; exact List.mem_append_left _ hk)
    · intro k hk
      rcases r.near k hk with h5 | h5
      · rcases hnew k h5 with h6 | ⟨z, hz, rfl⟩
        · exact Or.inl h6
        · exact Or.inr (.step (s := z.1) (q2 z hz) (.refl f _))
      · exact Or.inr h5
    · intro k hk
      rcases r.closed k hk with h5 | h5
      · rcases hnew k h5 with h6 | ⟨z, hz, rfl⟩
        · exact Or.inl h6
        · exact Or.inr (r.done _ (List.mem_map_of_mem hz))
      · exact Or.inr h5
    · intro c hc z hz
      simp only [List.mem_cons, List.not_mem_nil, or_false] at hc
      subst hc
      exact r.mono _ (q3 z hz)

/-- if collecting ends, a set of cliques around the start has been reached that is closed under neighbors, and nothing in it is farther from
the start than the nested calls allow -/
theorem collect_reached (js : SetIter Str) {f : Nat} {jt jt' : JoinTree} {x : Str} (h : Propagator.collect js f jt x = .ok jt') :
    (∃ p, jt' = { jt with potentials := p }) ∧ ∃ m : List Str, x ∈ m ∧ (∀ k ∈ m, WithinSteps (neighboringCliques js jt) (f + 1) x k) ∧
      ∀ k ∈ m, ∀ z ∈ neighboringCliques js jt k, z.2 ∈ m := by
  unfold Propagator.collect at h
  obtain ⟨⟨m', j1⟩, h1, h2⟩ := bind_ok h
  injection h2 with h2
  subst h2
  set nb := neighboringCliques js jt with hnb
  have key : ∀ (l : List (Str × Str)) (m : List Str) (jt : JoinTree) (m' : List Str) (jt' : JoinTree), neighboringCliques js jt = nb →
      (∀ z ∈ l, z ∈ nb x) → l.foldlM (fun st sc => collectWalk js f x sc.1 sc.2 st) (m, jt) = .ok (m', jt') →
      (∃ p, jt' = { jt with potentials := p }) ∧ Reached nb (f + 1) x m m' (l.map Prod.snd) := by
    intro l
    induction l with
    | nil =>
      intro m jt m' jt' _ _ h
      injection h with h
      injection h with h h'
      subst h h'
      exact ⟨⟨jt.potentials, rfl⟩, fun k hk => hk, fun k hk => Or.inl hk, fun k hk => Or.inl hk, by simp⟩
    | cons z l ih2 =>
      intro m jt m' jt' hnb hl h
      rw [List.foldlM_cons] at h
      obtain ⟨⟨m1, j1⟩, h1, h2⟩ := bind_ok h
      obtain ⟨⟨p, e⟩, r1⟩ := collectWalk_reached js _ _ _ _ _ _ _ _ hnb h1
      obtain ⟨⟨p', e'⟩, r2⟩ := ih2 m1 j1 m' jt' (by rw [e]; exact hnb) (fun z hz => hl z (List.mem_cons_of_mem _ hz)) h2
      refine ⟨⟨p', by rw [e', e]⟩, fun k hk => r2.mono k (r1.mono k hk), ?_, ?_, ?_⟩
      · intro k hk
        rcases r2.near k hk with h3 | h3
        · rcases r1.near k h3 with h4 | h4
          · exact Or.inl h4
          · exact Or.inr (.step (s := z.1) (hl z List.mem_cons_self) h4)
        · exact Or.inr h3
      · intro k hk
        rcases r2.closed k hk with h3 | h3
        · rcases r1.closed k h3 with h4 | h4
          · exact Or.inl h4
          · exact Or.inr (fun w hw => r2.mono _ (h4 w hw))
        · exact Or.inr h3
      · intro c hc w hw
        rw [List.map_cons, List.mem_cons] at hc
        rcases hc with rfl | hc
        · exact r2.mono _ (r1.done _ (by simp) w hw)
        · exact r2.done c hc w hw
  obtain ⟨hp, r⟩ := key _ _ _ _ _ rfl (fun z hz => hz) h1
  have hstart : ∀ k ∈ x :: (nb x).map Prod.snd, k = x ∨ ∃ z ∈ nb x, z.2 = k := by
    intro k hk
    rcases List.mem_cons.1 hk with hk | hk
    · exact Or.inl hk
    · exact Or.inr (List.mem_map.1 hk)
  refine ⟨hp, m', r.mono _ List.mem_cons_self, ?_, ?_⟩
  · intro k hk
    rcases r.near k hk with h3 | h3
    · rcases hstart k h3 with rfl | ⟨z, hz, rfl⟩
      · exact .refl _ _
      · exact .step (s := z.1) hz (.refl f _)
    · exact h3
  · intro k hk z hz
    rcases r.closed k hk with h3 | h3
    · rcases hstart k h3 with rfl | ⟨w, hw, rfl⟩
      · exact r.mono _ (List.mem_cons_of_mem _ (List.mem_map_of_mem hz))
      · exact r.done _ (List.mem_map_of_mem hw) z hz
    · exact h3 z hz

theorem propagateL_cut (lim : Limits) (js : SetIter Str) {jt jt' : JoinTree} (h : propagate js jt = .ok jt') :
    Cut (propagateL lim js jt) (.ok jt') ∧ (jt.nodes.length ≤ lim.collect → jt.nodes.length ≤ lim.distribute →
      propagateL lim js jt = .ok jt') := by
  unfold propagate at h
  unfold propagateL
  split at h
  · cases h
  · rename_i x hx
    rw [hx]
    obtain ⟨j1, h1, h2⟩ := bind_ok h
    obtain ⟨⟨p, hp⟩, _⟩ := collect_reached js h1
    have hlen : j1.nodes.length = jt.nodes.length := by rw [hp]
    obtain ⟨a1, a2⟩ := cut_any (F := fun f => Propagator.collect js f jt x.id) (fun f f' hf => collect_cut js hf jt x.id) h1 lim.collect
    obtain ⟨b1, b2⟩ := cut_any (F := fun f => Propagator.distribute js f j1 x.id) (fun f f' hf => distribute_cut js hf j1 x.id) h2 lim.distribute
    constructor
    · rcases a1 with e | e
      · left
        simp only [e, bind, Except.bind]
      · simp only [e, bind, Except.bind]
        exact b1
    · intro hc hd
      have e := a2 hc
      simp only [e, bind, Except.bind]
      exact b2 (by rw [hlen]; exact hd)

theorem triangulate_length (it : SetIter Int) {b : Bbn} (h : BbnInv b) :
    (Triangulator.triangulate it (moralize b)).1.length ≤ b.vars.length := by
  obtain ⟨m1, m2, m3, m4⟩ := moralize_spec h
  obtain ⟨d1, d2, d3⟩ := duplicate_spec m1 m2 (vars_nodup h) m3
  have hlen : b.vars.length = (Triangulator.duplicate (moralize b)).nodes.length := by
    rw [d2]; simp [nodeDict]
  have key : ∀ (fuel : Nat) (cs : List Clique) (m mm : Graph Variable), (Triangulator.loop it fuel cs m mm).1.length ≤ cs.length + fuel := by
    intro fuel
    induction fuel with
    | zero => intro cs m mm; exact le_refl _
    | succ fuel ih =>
      intro cs m mm
      rw [Triangulator.loop]
      split
      · simp
      · rename_i nc _
        refine (ih _ _ _).trans ?_
        split <;> simp <;> omega
  rw [hlen]
  have := key (Triangulator.duplicate (moralize b)).nodes.length [] (moralize b) (Triangulator.duplicate (moralize b))
  simpa [Triangulator.triangulate] using this

/-- two trees with the same nodes and edges -/
def SameShape (a b : JoinTree) : Prop := a.nodes = b.nodes ∧ a.neighbors = b.neighbors ∧ a.edges = b.edges

theorem SameShape.trans {a b c : JoinTree} (h : SameShape a b) (h' : SameShape b c) : SameShape a c :=
  ⟨h.1.trans h'.1, h.2.1.trans h'.2.1, h.2.2.trans h'.2.2⟩

theorem SameShape.nb {a b : JoinTree} (h : SameShape a b) (js : SetIter Str) : neighboringCliques js a = neighboringCliques js b := by
  funext c
  unfold neighboringCliques JoinTree.nbrs
  rw [h.2.1, h.2.2]

theorem SameShape.cliques {a b : JoinTree} (h : SameShape a b) : a.getCliques = b.getCliques := by
  unfold JoinTree.getCliques
  rw [h.1]

theorem initializeJt_shape {jt jt' : JoinTree} (hg : Initializer.initializeJt jt = .ok jt') : SameShape jt' jt := by
  unfold Initializer.initializeJt at hg
  obtain ⟨j, h1, h2⟩ := bind_ok hg
  have e1 : SameShape j jt := foldlM_inv (fun a : JoinTree => SameShape a jt) h1 ⟨rfl, rfl, rfl⟩ (by
    intro v _ a b ha hb
    refine SameShape.trans ?_ ha
    unfold Initializer.assignNode at hb
    obtain ⟨⟨k, j⟩, h1, hb⟩ := bind_ok hb
    obtain ⟨p, _, hb⟩ := bind_ok hb
    obtain ⟨o, _, hb⟩ := bind_ok hb
    have : SameShape j a := by
      unfold Initializer.getClique at h1
      obtain ⟨o, h4, h1⟩ := bind_ok h1
      split at h1
      · cases h1; exact ⟨rfl, rfl, rfl⟩
      · obtain ⟨cs, _, h1⟩ := bind_ok h1
        split at h1
        · cases h1
        · cases h1; exact ⟨rfl, rfl, rfl⟩
    split at hb
    · cases hb
    · cases hb; exact this)
  refine foldlM_inv (fun a : JoinTree => SameShape a jt) h2 e1 (fun v _ a b ha hb =>
    foldlM_inv (fun a : JoinTree => SameShape a jt) hb ha (fun x _ a b ha hb => ?_))
  refine SameShape.trans ?_ ha
  unfold Initializer.applyEvidence at hb
  obtain ⟨o, _, hb⟩ := bind_ok hb
  split at hb
  · cases hb
  · obtain ⟨p, _, hb⟩ := bind_ok hb
    cases hb
    exact ⟨rfl, rfl, rfl⟩

/-- `apply` under limits, when `apply` succeeds: `RecursionError` or the same tree; the same tree if the limits leave room for all nodes of
the tree; and if it ends, all cliques joined to the start clique are near to it -/
theorem applyL_cut (lim : Limits) (it : SetIter Int) (js : SetIter Str) {b : Bbn} (hb : BbnInv b) {jt : JoinTree}
    (h : apply it js b = .ok jt) :
    Cut (applyL lim it js b) (.ok jt) ∧
    (2 * b.vars.length + 1 ≤ lim.find → 2 * b.vars.length ≤ lim.collect → 2 * b.vars.length ≤ lim.distribute →
      applyL lim it js b = .ok jt) ∧
    (applyL lim it js b = .ok jt → ∃ x ∈ (Triangulator.triangulate it (moralize b)).1, ∃ m : List Str, x.id ∈ m ∧
      (∀ k ∈ m, WithinSteps (neighboringCliques js (Transformer.transform js (Triangulator.triangulate it (moralize b)).1)) (lim.collect + 1) x.id k) ∧
      ∀ k ∈ m, ∀ z ∈ neighboringCliques js (Transformer.transform js (Triangulator.triangulate it (moralize b)).1) k, z.2 ∈ m) := by
  have hs := (triangulate_spec it hb).1
  have hlen := triangulate_length it hb
  set cs := (Triangulator.triangulate it (moralize b)).1 with hcs
  have hf : CFam cs := ⟨hs.nodup, hs.anti⟩
  obtain ⟨T, ht⟩ := transform_spec js hs
  have hnl : (Transformer.transform js cs).nodes.length ≤ 2 * cs.length := ht.shape.length_le hf ht.forest
  obtain ⟨t1, t2⟩ := transformL_cut lim.find js hf
  unfold apply applyWith at h
  obtain ⟨heap1, a1, h⟩ := bind_ok h
  simp only at h
  obtain ⟨heap2, a2, h⟩ := bind_ok h
  obtain ⟨j1, a3, h⟩ := bind_ok h
  obtain ⟨j2, a4, h⟩ := bind_ok h
  injection h with h
  have hsh := initializeJt_shape a3
  have hnl1 : j1.nodes.length ≤ 2 * cs.length := by rw [hsh.1]; exact hnl
  obtain ⟨p1, p2⟩ := propagateL_cut lim js a4
  have heq : applyL lim it js b = (do
      let jt ← Transformer.transformL lim.find js cs
      let jt ← Initializer.initializeJt { jt with parentInfo := parentInfoOf b, heap := heap2 }
      let jt ← propagateL lim js jt
      .ok { jt with listener := true }) := by
    unfold applyL
    simp only [a1, a2, bind, Except.bind]
    rfl
  have hok : Transformer.transformL lim.find js cs = .ok (Transformer.transform js cs) →
      applyL lim it js b = (do
        let jt ← propagateL lim js j1
        .ok { jt with listener := true }) := by
    intro e
    have a3' : Initializer.initializeJt { Transformer.transform js cs with parentInfo := parentInfoOf b, heap := heap2 } = .ok j1 := a3
    rw [heq]
    simp only [e, a3', bind, Except.bind]
  refine ⟨?_, ?_, ?_⟩
  · rcases t1 with e | e
    · left
      rw [heq]
      simp only [e, bind, Except.bind]
    · rw [hok e]
      rcases p1 with e' | e'
      · left; rw [e']; rfl
      · right; rw [e', ← h]; rfl
  · intro hl1 hl2 hl3
    rw [hok (t2 (by omega)), p2 (by omega) (by omega), ← h]
    rfl
  · intro hL
    have e : Transformer.transformL lim.find js cs = .ok (Transformer.transform js cs) := by
      rcases t1 with e | e
      · exfalso
        rw [heq] at hL
        simp only [e, bind, Except.bind] at hL
        cases hL
      · exact e
    rw [hok e] at hL
    obtain ⟨j3, hj3, _⟩ := bind_ok hL
    unfold propagateL at hj3
    split at hj3
    · cases hj3
    · rename_i x hx
      obtain ⟨j4, hc, _⟩ := bind_ok hj3
      obtain ⟨_, m, hm⟩ := collect_reached js hc
      rw [hsh.nb js] at hm
      refine ⟨x, ?_, m, hm⟩
      have := List.mem_of_mem_head? hx
      rw [mem_sortBy, hsh.cliques] at this
      exact (ht.shape.mem_getCliques _).1 this

end PyBBN
