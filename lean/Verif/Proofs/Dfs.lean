import Verif.Model.Graph
import Verif.Proofs.Dict
import Mathlib.Data.Finset.Card
import Mathlib.Data.Finset.SDiff
import Mathlib.Logic.Relation

/-! The path detector decides reachability. -/

namespace PyBBN
variable {K : Type} [DecidableEq K] (succ : K → List K) (stop : K)

/-- one search step of the inner loop of `dfsFind` -/
def dfsStep (fuel : Nat) (acc : Bool × List K) (c : K) : Bool × List K :=
  if acc.1 then acc else if c ∈ acc.2 then acc else dfsFind succ stop fuel acc.2 c

theorem dfsFind_succ (fuel : Nat) (seen : List K) (i : K) :
    dfsFind succ stop (fuel + 1) seen i =
      if stop ∈ succ i then (true, seen)
      else (succ i).foldl (dfsStep succ stop fuel) (false, seen ++ [i]) := rfl

theorem dfsStep_fold_true (fuel : Nat) (cs : List K) (s : List K) :
    cs.foldl (dfsStep succ stop fuel) (true, s) = (true, s) := by
  induction cs with
  | nil => rfl
  | cons c cs ih => simpa [dfsStep] using ih

theorem dfs_sound (fuel : Nat) : ∀ (seen : List K) (i : K),
    (dfsFind succ stop fuel seen i).1 = true →
      Relation.TransGen (fun a b => b ∈ succ a) i stop := by
  induction fuel with
  | zero => intro seen i h; simp [dfsFind] at h
  | succ fuel ih =>
    intro seen i h
    rw [dfsFind_succ] at h
    split at h
    · exact Relation.TransGen.single ‹_›
    · have key : ∀ (cs : List K) (acc : Bool × List K), (∀ c ∈ cs, c ∈ succ i) →
          (acc.1 = true → Relation.TransGen (fun a b => b ∈ succ a) i stop) →
          (cs.foldl (dfsStep succ stop fuel) acc).1 = true →
          Relation.TransGen (fun a b => b ∈ succ a) i stop := by
        intro cs
        induction cs with
        | nil => intro acc _ h1 h2; exact h1 h2
        | cons c cs ih2 =>
          intro acc hc h1 h2
          refine ih2 _ (fun c' hc' => hc c' (List.mem_cons_of_mem _ hc')) ?_ h2
          intro h3
          unfold dfsStep at h3
          split at h3
          · exact h1 h3
          · split at h3
            · exact h1 h3
            · exact Relation.TransGen.head (hc c List.mem_cons_self) (ih _ _ h3)
      exact key (succ i) (false, seen ++ [i]) (fun c hc => hc) (by simp) h

theorem dfs_complete (U : Finset K) (hU : ∀ u ∈ U, ∀ v ∈ succ u, v ∈ U) (fuel : Nat) :
    ∀ (seen : List K) (i : K) (s' : List K),
      (U \ seen.toFinset).card ≤ fuel → i ∈ U → i ∉ seen →
      dfsFind succ stop fuel seen i = (false, s') →
      (∀ x ∈ seen, x ∈ s') ∧ i ∈ s' ∧
        ∀ x ∈ s', x ∉ seen → stop ∉ succ x ∧ ∀ y ∈ succ x, y ∈ s' := by
  induction fuel with
  | zero =>
    intro seen i s' hc hi hs _
    exfalso
    have : i ∈ U \ seen.toFinset := by simp [hi, hs]
    have := Finset.card_pos.2 ⟨i, this⟩
    omega
  | succ fuel ih =>
    intro seen i s' hc hi hs h
    rw [dfsFind_succ] at h
    split at h
    · simp at h
    · rename_i hstop
      have key : ∀ (cs : List K) (s s' : List K), (∀ c ∈ cs, c ∈ U) →
          (U \ s.toFinset).card ≤ fuel →
          cs.foldl (dfsStep succ stop fuel) (false, s) = (false, s') →
          (∀ x ∈ s, x ∈ s') ∧ (∀ c ∈ cs, c ∈ s') ∧
            ∀ x ∈ s', x ∉ s → stop ∉ succ x ∧ ∀ y ∈ succ x, y ∈ s' := by
        intro cs
        induction cs with
        | nil =>
          intro s s' _ _ h
          simp only [List.foldl_nil, Prod.mk.injEq, true_and] at h
          subst h
          exact ⟨fun x hx => hx, by simp, fun x hx hn => absurd hx hn⟩
        | cons c cs ih2 =>
          intro s s' hcs hcard h
          rw [List.foldl_cons] at h
          by_cases hcs' : c ∈ s
          · have e : dfsStep succ stop fuel (false, s) c = (false, s) := by simp [dfsStep, hcs']
            rw [e] at h
            obtain ⟨h1, h2, h3⟩ := ih2 s s' (fun c' hc' => hcs c' (List.mem_cons_of_mem _ hc')) hcard h
            refine ⟨h1, ?_, h3⟩
            intro c' hc'
            rcases List.mem_cons.1 hc' with rfl | hc'
            · exact h1 _ hcs'
            · exact h2 _ hc'
          · have e : dfsStep succ stop fuel (false, s) c = dfsFind succ stop fuel s c := by
              simp [dfsStep, hcs']
            rw [e] at h
            cases hd : dfsFind succ stop fuel s c with
            | mk b s1 =>
              rw [hd] at h
              cases b with
              | true => rw [dfsStep_fold_true] at h; simp at h
              | false =>
                obtain ⟨g1, g2, g3⟩ := ih s c s1 hcard (hcs c List.mem_cons_self) hcs' hd
                have hcard1 : (U \ s1.toFinset).card ≤ fuel := by
                  refine le_trans (Finset.card_le_card ?_) hcard
                  intro x hx
                  simp only [Finset.mem_sdiff, List.mem_toFinset] at hx ⊢
                  exact ⟨hx.1, fun hh => hx.2 (g1 x hh)⟩
                obtain ⟨h1, h2, h3⟩ :=
                  ih2 s1 s' (fun c' hc' => hcs c' (List.mem_cons_of_mem _ hc')) hcard1 h
                refine ⟨fun x hx => h1 x (g1 x hx), ?_, ?_⟩
                · intro c' hc'
                  rcases List.mem_cons.1 hc' with rfl | hc'
                  · exact h1 _ g2
                  · exact h2 _ hc'
                · intro x hx hxs
                  by_cases hx1 : x ∈ s1
                  · obtain ⟨a, b⟩ := g3 x hx1 hxs
                    exact ⟨a, fun y hy => h1 y (b y hy)⟩
                  · exact h3 x hx hx1
      have hcard1 : (U \ (seen ++ [i]).toFinset).card ≤ fuel := by
        have : (U \ (seen ++ [i]).toFinset) ⊂ U \ seen.toFinset := by
          rw [Finset.ssubset_iff_of_subset]
          · exact ⟨i, by simp [hi, hs], by simp⟩
          · intro x hx
            simp only [Finset.mem_sdiff, List.mem_toFinset, List.mem_append] at hx ⊢
            exact ⟨hx.1, fun hh => hx.2 (Or.inl hh)⟩
        have := Finset.card_lt_card this
        omega
      obtain ⟨h1, h2, h3⟩ := key (succ i) _ _ (hU i hi) hcard1 h
      refine ⟨fun x hx => h1 x (by simp [hx]), h1 i (by simp), ?_⟩
      intro x hx hxs
      by_cases hxi : x = i
      · subst hxi; exact ⟨hstop, h2⟩
      · exact h3 x hx (by simp [hxs, hxi])

/-- The search decides reachability whenever the fuel is at least the size of a closed universe. -/
theorem pathExists_iff (U : Finset K) (hU : ∀ u ∈ U, ∀ v ∈ succ u, v ∈ U) (fuel : Nat)
    (start : K) (hs : start ∈ U) (hf : U.card ≤ fuel) :
    pathExists succ fuel start stop = true ↔ Relation.ReflTransGen (fun a b => b ∈ succ a) start stop := by
  unfold pathExists
  by_cases hss : start = stop
  · subst hss; simp [Relation.ReflTransGen.refl]
  · simp only [hss, if_false]
    constructor
    · intro h; exact (dfs_sound succ stop fuel _ _ h).to_reflTransGen
    · intro h
      by_contra hc
      cases hd : dfsFind succ stop fuel [] start with
      | mk b s1 =>
        cases b with
        | true => rw [hd] at hc; exact hc rfl
        | false =>
          obtain ⟨_, g2, g3⟩ := dfs_complete succ stop U hU fuel [] start s1 (by simpa using hf) hs
            (by simp) hd
          have hall : ∀ x, Relation.ReflTransGen (fun a b => b ∈ succ a) start x → x ∈ s1 := by
            intro x hx
            induction hx with
            | refl => exact g2
            | tail _ hbc ihx => exact (g3 _ ihx (by simp)).2 _ hbc
          rcases Relation.ReflTransGen.cases_tail h with e | ⟨c, hc1, hc2⟩
          · exact hss e.symm
          · exact (g3 c (hall c hc1) (by simp)).1 hc2

/-- fuel-free corollary with a list as universe -/
theorem pathExists_iff' (U : List K) (hU : ∀ u ∈ U, ∀ v ∈ succ u, v ∈ U) (fuel : Nat)
    (start : K) (hs : start ∈ U) (hf : U.length ≤ fuel) :
    pathExists succ fuel start stop = true ↔ Relation.ReflTransGen (fun a b => b ∈ succ a) start stop :=
  pathExists_iff succ stop U.toFinset (by simpa using hU) fuel start (by simpa using hs)
    (le_trans (List.toFinset_card_le U) hf)

end PyBBN
