import Verif.Spec.ConnDag
import Verif.Proofs.ChancePair
import Mathlib.Data.Fin.Tuple.Sort
import Mathlib.GroupTheory.Perm.Fin

/-! The walk on the connected acyclic structures that turns one pair of nodes at a time. -/

namespace PyBBN
open Classical Relation
open Gen (Pair)

namespace DagWalk
variable {n : Nat}

abbrev Edges (n : Nat) : Type := Finset (Fin n × Fin n)

/-- remove the edge if the rest is connected, add it if there is no cycle -/
noncomputable def turn (q : Pair n) (E : Edges n) : Edges n :=
  if q.1 ∈ E then (if AllJoined (E.erase q.1) then E.erase q.1 else E)
  else if NoCycle (insert q.1 E) then insert q.1 E else E

/-- connected and acyclic -/
def Good (E : Edges n) : Prop := NoCycle E ∧ AllJoined E

theorem NoCycle.mono {E F : Edges n} (h : E ⊆ F) (hF : NoCycle F) : NoCycle E := fun x hx =>
  hF x (TransGen.mono (fun _ _ (he : _ ∈ E) => h he) _ _ hx)

theorem AllJoined.mono {E F : Edges n} (h : E ⊆ F) (hE : AllJoined E) : AllJoined F := fun x y =>
  ReflTransGen.mono (fun _ _ (he : _ ∈ E ∨ _ ∈ E) => he.imp (fun h' => h h') (fun h' => h h')) _ _ (hE x y)

theorem turn_good (q : Pair n) (E : Edges n) (h : Good E) : Good (turn q E) := by
  unfold turn
  split
  · split
    · next hc => exact ⟨NoCycle.mono (Finset.erase_subset _ _) h.1, hc⟩
    · exact h
  · split
    · next hc => exact ⟨hc, AllJoined.mono (Finset.subset_insert _ _) h.2⟩
    · exact h

theorem turn_turn (q : Pair n) (E : Edges n) (h : Good E) : turn q (turn q E) = E := by
  by_cases hq : q.1 ∈ E
  · by_cases hc : AllJoined (E.erase q.1)
    · have h1 : turn q E = E.erase q.1 := by rw [turn, if_pos hq, if_pos hc]
      rw [h1, turn, if_neg (Finset.notMem_erase _ _), Finset.insert_erase hq, if_pos h.1]
    · have h1 : turn q E = E := by rw [turn, if_pos hq, if_neg hc]
      rw [h1, h1]
  · by_cases hc : NoCycle (insert q.1 E)
    · have h1 : turn q E = insert q.1 E := by rw [turn, if_neg hq, if_pos hc]
      rw [h1, turn, if_pos (Finset.mem_insert_self _ _), Finset.erase_insert hq, if_pos h.2]
    · have h1 : turn q E = E := by rw [turn, if_neg hq, if_neg hc]
      rw [h1, h1]

/-- some pairs lead from one to the other -/
def Leads (E F : Edges n) : Prop := ∃ w, Walk.go turn w E = F

theorem Leads.trans {E F G : Edges n} (h1 : Leads E F) (h2 : Leads F G) : Leads E G := by
  obtain ⟨v, rfl⟩ := h1
  obtain ⟨w, rfl⟩ := h2
  exact ⟨v ++ w, Walk.go_append _ _ _ _⟩

theorem Leads.symm {E F : Edges n} (hE : Good E) (h : Leads E F) : Leads F E := by
  obtain ⟨w, rfl⟩ := h
  exact ⟨w.reverse, Walk.go_back turn_good turn_turn w hE⟩

/-- edges can be added one by one -/
theorem leads_of_subset {E F : Edges n} (h : E ⊆ F) (hF : NoCycle F) : Leads E F := by
  generalize hk : (F \ E).card = k
  induction k generalizing E with
  | zero =>
    have : F ⊆ E := by rwa [Finset.card_eq_zero, Finset.sdiff_eq_empty_iff_subset] at hk
    exact ⟨[], Finset.Subset.antisymm h this⟩
  | succ k ih =>
    obtain ⟨e, he⟩ := Finset.card_pos.1 (by omega : 0 < (F \ E).card)
    rw [Finset.mem_sdiff] at he
    have hne : e.1 ≠ e.2 := by
      intro h'
      have h2 : (e.1, e.1) ∈ F := by rw [show (e.1, e.1) = e from Prod.ext rfl h']; exact he.1
      exact hF e.1 (TransGen.single h2)
    have hsub : insert e E ⊆ F := Finset.insert_subset he.1 h
    have ht : turn ⟨e, hne⟩ E = insert e E := by
      rw [turn, if_neg he.2, if_pos (NoCycle.mono hsub hF)]
    obtain ⟨w, hw⟩ := ih hsub (by
      have : F \ insert e E = (F \ E).erase e := by ext x; simp only [Finset.mem_sdiff, Finset.mem_insert, Finset.mem_erase]; tauto
      rw [this, Finset.card_erase_of_mem (Finset.mem_sdiff.2 he)]
      omega)
    exact ⟨⟨e, hne⟩ :: w, by change Walk.go turn w (turn ⟨e, hne⟩ E) = F; rw [ht]; exact hw⟩

/-- all edges along an order -/
noncomputable def total (ρ : Equiv.Perm (Fin n)) : Edges n := Finset.univ.filter (fun q => ρ q.1 < ρ q.2)

theorem mem_total {ρ : Equiv.Perm (Fin n)} {a b : Fin n} : (a, b) ∈ total ρ ↔ ρ a < ρ b := by simp [total]

theorem noCycle_of_lt {E : Edges n} {ρ : Fin n → Fin n} (h : ∀ a b, (a, b) ∈ E → ρ a < ρ b) : NoCycle E := by
  intro x hx
  have : ∀ y, TransGen (fun a b => (a, b) ∈ E) x y → ρ x < ρ y := by
    intro y hy
    induction hy with
    | single h' => exact h _ _ h'
    | tail _ h' ih => exact lt_trans ih (h _ _ h')
  exact lt_irrefl _ (this x hx)

theorem total_noCycle (ρ : Equiv.Perm (Fin n)) : NoCycle (total ρ) := noCycle_of_lt (ρ := ρ) (fun _ _ h => mem_total.1 h)

theorem total_joins (ρ : Equiv.Perm (Fin n)) : AllJoined (total ρ) := by
  intro x y
  rcases lt_trichotomy (ρ x) (ρ y) with h | h | h
  · exact ReflTransGen.single (Or.inl (mem_total.2 h))
  · rw [ρ.injective h]
  · exact ReflTransGen.single (Or.inr (mem_total.2 h))

theorem total_good (ρ : Equiv.Perm (Fin n)) : Good (total ρ) := ⟨total_noCycle ρ, total_joins ρ⟩

/-- every acyclic structure is along an order -/
theorem exists_order {E : Edges n} (h : NoCycle E) : ∃ ρ : Equiv.Perm (Fin n), E ⊆ total ρ := by
  let f : Fin n → Nat := fun a => (Finset.univ.filter (fun x => TransGen (fun a b => (a, b) ∈ E) x a)).card
  have hf : ∀ a b, (a, b) ∈ E → f a < f b := by
    intro a b hab
    apply Finset.card_lt_card
    refine ⟨?_, ?_⟩
    · intro x hx
      simp only [Finset.mem_filter, Finset.mem_univ, true_and] at hx ⊢
      exact hx.tail hab
    · intro hs
      have : a ∈ Finset.univ.filter (fun x => TransGen (fun a b => (a, b) ∈ E) x a) := hs (by
        simp only [Finset.mem_filter, Finset.mem_univ, true_and]
        exact TransGen.single hab)
      simp only [Finset.mem_filter, Finset.mem_univ, true_and] at this
      exact h a this
  refine ⟨(Tuple.sort f).symm, ?_⟩
  rintro ⟨a, b⟩ hab
  rw [mem_total]
  by_contra hle
  have := Tuple.monotone_sort f (not_lt.1 hle)
  simp only [Function.comp_apply, Equiv.apply_symm_apply] at this
  exact absurd (hf a b hab) (not_lt.2 this)

/-- with a third node, two neighbours in the order can change places -/
theorem leads_swap {m : Nat} (hm : 2 ≤ m) (k : Fin m) (ρ : Equiv.Perm (Fin (m + 1))) :
    Leads (total ρ) (total (Equiv.swap k.castSucc k.succ * ρ)) := by
  set a := ρ.symm k.castSucc with ha
  set b := ρ.symm k.succ with hb
  have hρa : ρ a = k.castSucc := by rw [ha, Equiv.apply_symm_apply]
  have hρb : ρ b = k.succ := by rw [hb, Equiv.apply_symm_apply]
  set E := (total ρ).erase (a, b) with hE
  have hne : a ≠ b := by
    intro h
    have := hρa.symm.trans (h ▸ hρb)
    simp [Fin.ext_iff] at this
  have hsub : E ⊆ total (Equiv.swap k.castSucc k.succ * ρ) := by
    rintro ⟨x, y⟩ hxy
    rw [hE, Finset.mem_erase] at hxy
    obtain ⟨h1, h2⟩ := hxy
    rw [mem_total] at h2 ⊢
    have h3 : ¬ (ρ x = k.castSucc ∧ ρ y = k.succ) := by
      rintro ⟨h3, h4⟩
      apply h1
      rw [ha, hb, ← h3, ← h4]
      simp
    simp only [Equiv.Perm.coe_mul, Function.comp_apply, Equiv.swap_apply_def]
    generalize ρ x = u at *
    generalize ρ y = v at *
    simp only [Fin.ext_iff, Fin.lt_def] at *
    simp only [Fin.val_castSucc, Fin.val_succ] at *
    split_ifs <;> simp_all <;> omega
  have hadj : ∀ x y, x ≠ y → ¬ (x = a ∧ y = b) → ¬ (x = b ∧ y = a) → (x, y) ∈ E ∨ (y, x) ∈ E := by
    intro x y hxy h1 h2
    rcases lt_trichotomy (ρ x) (ρ y) with h | h | h
    · left
      rw [hE, Finset.mem_erase, mem_total]
      exact ⟨fun e => h1 (by simpa using e), h⟩
    · exact absurd (ρ.injective h) hxy
    · right
      rw [hE, Finset.mem_erase, mem_total]
      exact ⟨fun e => h2 (by simpa [and_comm] using e), h⟩
  obtain ⟨c, hca, hcb⟩ : ∃ c, c ≠ a ∧ c ≠ b := by
    by_contra hno
    push Not at hno
    have h1 : (Finset.univ : Finset (Fin (m + 1))) ⊆ {a, b} := by
      intro c _
      by_cases h : c = a
      · simp [h]
      · simp [hno c h]
    have h2 := Finset.card_le_card h1
    rw [Finset.card_univ, Fintype.card_fin] at h2
    have := Finset.card_le_two (a := a) (b := b)
    omega
  have hjoin : AllJoined E := by
    intro x y
    by_cases hxy : x = y
    · rw [hxy]
    by_cases h1 : x = a ∧ y = b
    · rw [h1.1, h1.2]
      refine ReflTransGen.trans (b := c) (ReflTransGen.single (hadj a c hca.symm (fun h => hcb h.2) (fun h => hne h.1))) (ReflTransGen.single
        (hadj c b hcb (fun h => hca h.1) (fun h => hcb h.1)))
    by_cases h2 : x = b ∧ y = a
    · rw [h2.1, h2.2]
      refine ReflTransGen.trans (b := c) (ReflTransGen.single (hadj b c hcb.symm (fun h => hne h.1.symm) (fun h => hca h.2))) (ReflTransGen.single
        (hadj c a hca (fun h => hca h.1) (fun h => hcb h.1)))
    exact ReflTransGen.single (hadj x y hxy h1 h2)
  have hE1 : Leads E (total ρ) := leads_of_subset (Finset.erase_subset _ _) (total_noCycle ρ)
  have hgood : Good E := ⟨NoCycle.mono (Finset.erase_subset _ _) (total_noCycle ρ), hjoin⟩
  exact (hE1.symm hgood).trans (leads_of_subset hsub (total_noCycle _))

theorem leads_total {m : Nat} (hm : 2 ≤ m) (σ ρ : Equiv.Perm (Fin (m + 1))) : Leads (total ρ) (total (σ * ρ)) := by
  have hσ : σ ∈ Submonoid.closure (Set.range fun i : Fin m => Equiv.swap i.castSucc i.succ) := by
    rw [Equiv.Perm.mclosure_swap_castSucc_succ]; trivial
  induction hσ using Submonoid.closure_induction generalizing ρ with
  | mem σ h =>
    obtain ⟨k, rfl⟩ := h
    exact leads_swap hm k ρ
  | one => exact ⟨[], by simp [Walk.go]⟩
  | mul σ τ _ _ h1 h2 => rw [mul_assoc]; exact (h2 ρ).trans (h1 (τ * ρ))

/-- the chain `0 → 1 → … → n-1` -/
noncomputable def chain (n : Nat) : Edges n := Finset.univ.filter (fun q => (q.1 : Nat) + 1 = q.2)

theorem mem_chain {a b : Fin n} : (a, b) ∈ chain n ↔ (a : Nat) + 1 = b := by simp [chain]

theorem chain_sub : chain n ⊆ total 1 := by
  rintro ⟨a, b⟩ h
  rw [mem_chain] at h
  rw [mem_total]
  simp only [Equiv.Perm.coe_one, id_eq, Fin.lt_def]
  omega

theorem chain_joins : AllJoined (chain n) := by
  have h0 : ∀ (k : Nat) (hk : k < n), ReflTransGen (fun a b => (a, b) ∈ chain n ∨ (b, a) ∈ chain n) ⟨0, by omega⟩ ⟨k, hk⟩ := by
    intro k
    induction k with
    | zero => intro hk; exact ReflTransGen.refl
    | succ k ih => intro hk; exact (ih (by omega)).tail (Or.inl (mem_chain.2 rfl))
  intro x y
  have hs : ∀ {x y : Fin n}, ReflTransGen (fun a b => (a, b) ∈ chain n ∨ (b, a) ∈ chain n) x y →
      ReflTransGen (fun a b => (a, b) ∈ chain n ∨ (b, a) ∈ chain n) y x := by
    intro x y h
    induction h with
    | refl => exact ReflTransGen.refl
    | tail _ h' ih => exact ReflTransGen.head h'.symm ih
  exact (hs (h0 x x.2)).trans (h0 y y.2)

theorem chain_good : Good (chain n) := ⟨NoCycle.mono chain_sub (total_noCycle 1), chain_joins⟩

/-- from the chain every connected acyclic structure can be reached -/
theorem leads_chain (hn : 3 ≤ n) {E : Edges n} (hE : Good E) : Leads (chain n) E := by
  obtain ⟨m, rfl⟩ : ∃ m, n = m + 1 := ⟨n - 1, by omega⟩
  obtain ⟨ρ, hρ⟩ := exists_order hE.1
  refine (leads_of_subset chain_sub (total_noCycle 1)).trans ?_
  have h1 := leads_total (by omega : 2 ≤ m) ρ 1
  rw [mul_one] at h1
  exact h1.trans ((leads_of_subset hρ (total_noCycle ρ)).symm hE)

theorem chain_loop (hn : 2 ≤ n) : ∃ q : Pair n, turn q (chain n) = chain n := by
  refine ⟨⟨(⟨1, by omega⟩, ⟨0, by omega⟩), by simp [Fin.ext_iff]⟩, ?_⟩
  have h1 : ((⟨1, by omega⟩, ⟨0, by omega⟩) : Fin n × Fin n) ∉ chain n := by rw [mem_chain]; simp
  rw [turn, if_neg h1, if_neg]
  intro h
  apply h ⟨0, by omega⟩
  refine TransGen.tail (b := ⟨1, by omega⟩) (TransGen.single ?_) (Finset.mem_insert_self _ _)
  exact Finset.mem_insert_of_mem (mem_chain.2 rfl)

end DagWalk
end PyBBN
