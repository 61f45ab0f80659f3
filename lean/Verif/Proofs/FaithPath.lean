import Verif.Proofs.Faithful
import Verif.Spec.DSep

/-! Open paths connect. -/

namespace PyBBN.Faith
open Relation DSep

variable {Par : Int → Int → Prop} {Z : Int → Bool} {l : List Int} {x : Int}

/-- from a node with a descendant in `Z` the walk goes down to it, up again, and on to the parents -/
theorem Ball.bounce (hl : ∀ p c, Par p c → p ∈ l ∧ c ∈ l) {v z : Int} (hvz : ReflTransGen Par v z) (hz : Z z = true) :
    Ball Par Z l x v false → ∀ p, Par p v → Ball Par Z l x p true := by
  induction hvz using ReflTransGen.head_induction_on with
  | refl => intro h p hp; exact h.downPar hz hp (hl _ _ hp).1
  | @head a c hac _ ih =>
    intro h p hp
    cases ha : Z a with
    | true => exact h.downPar ha hp (hl _ _ hp).1
    | false =>
      have h1 := ih (h.toChild ha hac (hl _ _ hac).2) a hac
      exact h1.upPar ha hp (hl _ _ hp).1

theorem ball_of_open (hl : ∀ p c, Par p c → p ∈ l ∧ c ∈ l) (hasym : ∀ a b, Par a b → ¬ Par b a) {y : Int} {p : List Int} (hp : IsPath Par x y p) (hx : x ∈ l) (hxZ : Z x = false)
    (ho : Open Par (fun i => Z i = true) p) : ∃ d, Ball Par Z l x y d := by
  have hadj : ∀ i a b, p[i]? = some a → p[i+1]? = some b → Adj Par a b := by
    intro i a b h1 h2
    obtain ⟨k1, rfl⟩ := List.getElem?_eq_some_iff.1 h1
    obtain ⟨k2, rfl⟩ := List.getElem?_eq_some_iff.1 h2
    exact List.isChain_iff_getElem.1 hp.chain i k2
  have h0 : p[0]? = some x := by rw [← List.head?_eq_getElem?]; exact hp.start
  have key : ∀ i b, p[i+1]? = some b → ∃ a, p[i]? = some a ∧ (Par b a ∧ Ball Par Z l x b true ∨ Par a b ∧ Ball Par Z l x b false) := by
    intro i
    induction i with
    | zero =>
      intro b hb
      refine ⟨x, h0, ?_⟩
      rcases hadj 0 x b h0 hb with h | h
      · exact .inr ⟨h, (Ball.start hx).toChild hxZ h (hl _ _ h).2⟩
      · exact .inl ⟨h, (Ball.start hx).upPar hxZ h (hl _ _ h).1⟩
    | succ i ih =>
      intro b hb
      have hlt : i + 1 + 1 < p.length := (List.getElem?_eq_some_iff.1 hb).1
      have hc : p[i+1]? = some p[i+1] := List.getElem?_eq_getElem (by omega)
      obtain ⟨a, ha, hab⟩ := ih _ hc
      generalize p[i+1] = c at hc hab
      refine ⟨c, hc, ?_⟩
      obtain ⟨o1, o2⟩ := ho (i+1) ⟨by omega, hlt⟩ c hc
      have hcb := hadj (i+1) c b hc hb
      by_cases hcol : Collider Par p (i+1)
      · obtain ⟨z, hz1, hz2⟩ := o1 hcol
        obtain ⟨a', c', b', e1, e2, e3, e4, e5⟩ := hcol
        rw [Nat.add_sub_cancel, ha] at e1
        rw [hc] at e2
        rw [hb] at e3
        cases e1; cases e2; cases e3
        refine .inl ⟨e5, ?_⟩
        rcases hab with ⟨g1, g2⟩ | ⟨g1, g2⟩
        · exact absurd g1 (hasym a c e4)
        · exact g2.bounce hl hz1 hz2 b e5
      · have hcz : Z c = false := by simpa using o2 hcol
        rcases hcb with h | h
        · refine .inr ⟨h, ?_⟩
          rcases hab with ⟨_, g2⟩ | ⟨_, g2⟩ <;> exact g2.toChild hcz h (hl _ _ h).2
        · refine .inl ⟨h, ?_⟩
          rcases hab with ⟨g1, g2⟩ | ⟨g1, _⟩
          · exact g2.upPar hcz h (hl _ _ h).1
          · exact absurd ⟨a, c, b, by rw [Nat.add_sub_cancel]; exact ha, hc, hb, g1, h⟩ hcol
  have hne : p ≠ [] := by intro h; rw [h] at h0; simp at h0
  have hlast : p[p.length - 1]? = some y := by rw [← List.getLast?_eq_getElem?]; exact hp.stop
  cases hn : p.length - 1 with
  | zero =>
    rw [hn, h0] at hlast
    cases hlast
    exact ⟨true, .start hx⟩
  | succ i =>
    rw [hn] at hlast
    obtain ⟨a, _, ⟨_, h⟩ | ⟨_, h⟩⟩ := key i y hlast
    · exact ⟨_, h⟩
    · exact ⟨_, h⟩

end PyBBN.Faith
