import Verif.Proofs.Generator

/-! Runs of the generators: more draws do not change a finished run, and a run that waits can always be finished. -/

namespace PyBBN
namespace Rnd
variable {α β : Type}

/-- draws that are not needed are left alone -/
def Mono (x : Rnd α) : Prop := ∀ ds ext,
  (∀ a rest, x ds = .done a rest → x (ds ++ ext) = .done a (rest ++ ext)) ∧ (∀ e, x ds = .raised e → x (ds ++ ext) = .raised e)

/-- a run that waits for draws can be finished (unless it raises) -/
def Live (x : Rnd α) : Prop := ∀ ds, x ds = .waiting → ∃ ext, (∃ a rest, x (ds ++ ext) = .done a rest) ∨ ∃ e, x (ds ++ ext) = .raised e

theorem mono_pure (a : α) : (pure a).Mono := fun ds ext =>
  ⟨fun b rest h => (by cases h; rfl), fun e h => (by cases h)⟩

theorem mono_raise (e : PyErr) : (raise e : Rnd α).Mono := fun ds ext =>
  ⟨fun b rest h => (by cases h), fun e h => (by cases h; rfl)⟩

theorem mono_lift (y : Py α) : (lift y).Mono := by
  cases y with
  | ok a => exact mono_pure a
  | error e => exact mono_raise e

theorem Mono.bind {x : Rnd α} {f : α → Rnd β} (hx : x.Mono) (hf : ∀ a, (f a).Mono) : (Rnd.bind x f).Mono := by
  intro ds ext
  unfold Rnd.bind
  cases h : x ds with
  | done a rest =>
    rw [(hx ds ext).1 a rest h]
    exact hf a rest ext
  | raised e =>
    rw [(hx ds ext).2 e h]
    exact ⟨fun b rest h => (by cases h), fun e h => h⟩
  | waiting => exact ⟨fun b rest h => (by cases h), fun e h => (by cases h)⟩

theorem mono_draw : draw.Mono := by
  intro ds ext
  cases ds with
  | nil => exact ⟨fun b rest h => (by cases h), fun e h => (by cases h)⟩
  | cons d ds => exact ⟨fun b rest h => (by cases h; rfl), fun e h => (by cases h)⟩

theorem live_pure (a : α) : (pure a).Live := fun ds h => by cases h

theorem live_lift (y : Py α) : (lift y).Live := by
  cases y with
  | ok a => exact live_pure a
  | error e => exact fun ds h => by cases h

theorem live_draw : draw.Live := by
  intro ds h
  cases ds with
  | nil => exact ⟨[0], Or.inl ⟨0, [], rfl⟩⟩
  | cons d ds => cases h

theorem Live.bind {x : Rnd α} {f : α → Rnd β} (mx : x.Mono) (hx : x.Live) (hf : ∀ a, (f a).Live) : (Rnd.bind x f).Live := by
  have go : ∀ ds a rest, x ds = .done a rest → ∃ ext, (∃ b r, Rnd.bind x f (ds ++ ext) = .done b r) ∨ ∃ e, Rnd.bind x f (ds ++ ext) = .raised e := by
    intro ds a rest h
    cases hfa : f a rest with
    | done b r => exact ⟨[], Or.inl ⟨b, r, by simp [Rnd.bind, h, hfa]⟩⟩
    | raised e => exact ⟨[], Or.inr ⟨e, by simp [Rnd.bind, h, hfa]⟩⟩
    | waiting =>
      obtain ⟨ext, hext⟩ := hf a rest hfa
      refine ⟨ext, ?_⟩
      have := (mx ds ext).1 a rest h
      unfold Rnd.bind
      rw [this]
      exact hext
  intro ds hds
  cases h : x ds with
  | done a rest => exact go ds a rest h
  | raised e => unfold Rnd.bind at hds; rw [h] at hds; cases hds
  | waiting =>
    obtain ⟨ext, hext⟩ := hx ds h
    rcases hext with ⟨a, rest, h1⟩ | ⟨e, h1⟩
    · obtain ⟨ext2, h2⟩ := go (ds ++ ext) a rest h1
      exact ⟨ext ++ ext2, by rw [← List.append_assoc]; exact h2⟩
    · exact ⟨ext, Or.inr ⟨e, by unfold Rnd.bind; rw [h1]⟩⟩

theorem mono_randint (lo hi : Int) : (randint lo hi).Mono := by
  unfold randint
  split_ifs
  · exact mono_raise _
  · exact mono_draw.bind (fun _ => mono_pure _)

theorem live_randint (lo hi : Int) : (randint lo hi).Live := by
  unfold randint
  split_ifs
  · exact fun ds h => by cases h
  · exact Live.bind mono_draw live_draw (fun _ => live_pure _)

end Rnd

namespace Gen
open Rnd

theorem mono_drawOther (n i : Int) : Rnd.Mono (drawOther n i) := by
  intro ds ext
  induction ds with
  | nil => exact ⟨fun b rest h => (by cases h), fun e h => (by cases h)⟩
  | cons d ds ih =>
    rw [List.cons_append]
    unfold drawOther
    split_ifs with h
    · exact ih
    · exact ⟨fun b rest h => (by cases h; rfl), fun e h => (by cases h)⟩

theorem live_drawOther {n i : Int} (hn : 2 ≤ n) : Rnd.Live (drawOther n i) := by
  intro ds h
  refine ⟨[if i = 0 then 1 else 0], Or.inl ?_⟩
  induction ds with
  | nil =>
    rw [List.nil_append]
    by_cases hi : i = 0
    · rw [if_pos hi]
      have : (((1 : Nat) : Int) % n) = 1 := by rw [Nat.cast_one]; exact Int.emod_eq_of_lt (by omega) (by omega)
      unfold drawOther
      rw [this, if_neg (by omega)]
      exact ⟨_, _, rfl⟩
    · rw [if_neg hi]
      unfold drawOther
      rw [Nat.cast_zero, Int.zero_emod, if_neg (by omega)]
      exact ⟨_, _, rfl⟩
  | cons d ds ih =>
    rw [List.cons_append]
    generalize (if i = 0 then 1 else 0) = x at ih ⊢
    unfold drawOther at h ⊢
    split_ifs at h ⊢ with hd
    exact ih h

theorem mono_pair (n : Int) : (randomNodePair n).Mono :=
  (mono_randint 0 n).bind (fun i => (mono_drawOther n i).bind (fun _ => mono_pure _))

theorem live_pair {n : Int} (hn : 2 ≤ n) : (randomNodePair n).Live :=
  Live.bind (mono_randint 0 n) (live_randint 0 n)
    (fun i => Live.bind (mono_drawOther n i) (live_drawOther hn) (fun _ => live_pure _))

theorem multiStep_mono_live {n : Int} (hn : 2 ≤ n) (g : DiG Int) : (multiStep n g).Mono ∧ (multiStep n g).Live := by
  have key : ∀ p : Int × Int, Rnd.Mono (if Do.hasEdge g p.1 p.2 = true then Rnd.lift (delEdge p.1 p.2 g) else Rnd.lift (addEdge p.1 p.2 g)) ∧
      Rnd.Live (if Do.hasEdge g p.1 p.2 = true then Rnd.lift (delEdge p.1 p.2 g) else Rnd.lift (addEdge p.1 p.2 g)) := by
    intro p
    split_ifs
    · exact ⟨mono_lift _, live_lift _⟩
    · exact ⟨mono_lift _, live_lift _⟩
  exact ⟨(mono_pair n).bind (fun p => (key p).1), Live.bind (mono_pair n) (live_pair hn) (fun p => (key p).2)⟩

theorem singlyStep_mono_live {n : Int} (hn : 2 ≤ n) (g : DiG Int) : (singlyStep n g).Mono ∧ (singlyStep n g).Live := by
  have inner : ∀ (i j : Int) (p : Nat), Rnd.Mono (match findPredecessor i j g with
      | none => Rnd.pure g
      | some k => Rnd.lift (rewire i j k (decide (p % 2 = 0)) g)) ∧ Rnd.Live (match findPredecessor i j g with
      | none => Rnd.pure g
      | some k => Rnd.lift (rewire i j k (decide (p % 2 = 0)) g)) := by
    intro i j p
    cases findPredecessor i j g with
    | none => exact ⟨mono_pure _, live_pure _⟩
    | some k => exact ⟨mono_lift _, live_lift _⟩
  have key : ∀ q : Int × Int, Rnd.Mono (if (Do.hasEdge g q.1 q.2 || Do.hasEdge g q.2 q.1) = true then Rnd.pure g
      else Rnd.bind Rnd.draw (fun p => match findPredecessor q.1 q.2 g with
        | none => Rnd.pure g
        | some k => Rnd.lift (rewire q.1 q.2 k (decide (p % 2 = 0)) g))) ∧
      Rnd.Live (if (Do.hasEdge g q.1 q.2 || Do.hasEdge g q.2 q.1) = true then Rnd.pure g
      else Rnd.bind Rnd.draw (fun p => match findPredecessor q.1 q.2 g with
        | none => Rnd.pure g
        | some k => Rnd.lift (rewire q.1 q.2 k (decide (p % 2 = 0)) g))) := by
    intro q
    split_ifs
    · exact ⟨mono_pure _, live_pure _⟩
    · exact ⟨mono_draw.bind (fun p => (inner _ _ p).1), Live.bind mono_draw live_draw (fun p => (inner _ _ p).2)⟩
  exact ⟨(mono_pair n).bind (fun q => (key q).1), Live.bind (mono_pair n) (live_pair hn) (fun q => (key q).2)⟩

theorem loop_mono_live {step : DiG Int → Rnd (DiG Int)} (h : ∀ g, (step g).Mono ∧ (step g).Live) : ∀ k g, (loop step k g).Mono ∧ (loop step k g).Live
  | 0, g => ⟨mono_pure g, live_pure g⟩
  | k + 1, g => ⟨(h g).1.bind (fun g' => (loop_mono_live h k g').1),
      Live.bind (h g).1 (h g).2 (fun g' => (loop_mono_live h k g').2)⟩

/-- a run that never raises and is live finishes after some more draws -/
theorem finishes {α : Type} {x : Rnd α} {P : α → Prop} (ha : x.Always P) (hl : x.Live) (ds : List Nat) :
    ∃ ext a rest, x (ds ++ ext) = .done a rest := by
  cases h : x ds with
  | done a rest => exact ⟨[], a, rest, by rw [List.append_nil]; exact h⟩
  | raised e => exact absurd h ((ha ds).1 e)
  | waiting =>
    obtain ⟨ext, ⟨a, rest, h1⟩ | ⟨e, h1⟩⟩ := hl ds h
    · exact ⟨ext, a, rest, h1⟩
    · exact absurd h1 ((ha _).1 e)

/-- with a single node the second draw never differs from the first -/
theorem drawOther_one : ∀ ds, drawOther 1 0 ds = .waiting
  | [] => rfl
  | d :: ds => by
      unfold drawOther
      rw [Int.emod_one, if_pos rfl]
      exact drawOther_one ds

theorem pair_one (ds : List Nat) : randomNodePair 1 ds = .waiting := by
  cases ds with
  | nil => rfl
  | cons d ds =>
    have h : randint 0 1 (d :: ds) = .done 0 ds := by
      change Run.done (0 + (d : Int) % (1 - 0)) ds = _
      rw [Int.sub_zero, Int.emod_one, Int.add_zero]
    have e : randomNodePair 1 = Rnd.bind (randint 0 1) (fun i => Rnd.bind (drawOther 1 i) (fun j => Rnd.pure (i, j))) := rfl
    rw [e]
    simp only [Rnd.bind, h, drawOther_one]

theorem pair_none {n : Int} (hn : n ≤ 0) (ds : List Nat) : randomNodePair n ds = .raised .valueError := by
  change Rnd.bind (randint 0 n) _ ds = _
  unfold Rnd.bind randint
  rw [if_pos hn]
  rfl

end Gen
end PyBBN
