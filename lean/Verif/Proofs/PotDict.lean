import Verif.Model.PotDict
import Verif.Proofs.SamplingRun
import Verif.Props.Potentials

/-! Keys of potentials as dictionaries. -/

namespace PyBBN

theorem kvText_bar {i : Int} {v : Str} (h : '|' ∉ v) : '|' ∉ kvText i v := by
  unfold kvText
  simp only [List.mem_append, not_or]
  refine ⟨⟨?_, by decide⟩, h⟩
  intro hm
  rcases strInt_chars hm with e | e
  · exact absurd e (by decide)
  · exact absurd e (by decide)

theorem kvText_ne_nil (i : Int) (v : Str) : kvText i v ≠ [] := by
  unfold kvText
  simp

/-- the text of a list of pairs -/
def barText (l : List (Int × Str)) : Str := joinStr "|".toList (l.map (fun tup => kvText tup.1 tup.2))

theorem barText_nil_iff : ∀ {l : List (Int × Str)}, barText l = [] ↔ l = []
  | [] => by simp [barText, joinStr]
  | [a] => by simp [barText, joinStr, kvText_ne_nil]
  | a :: b :: l => by simp [barText, joinStr]

theorem barText_inj {l m : List (Int × Str)} (hl : ∀ p ∈ l, '|' ∉ p.2) (hm : ∀ p ∈ m, '|' ∉ p.2) (h : barText l = barText m) : l = m := by
  by_cases h1 : l = []
  · subst h1
    have : barText m = [] := h ▸ barText_nil_iff.2 rfl
    exact (barText_nil_iff.1 this).symm
  by_cases h2 : m = []
  · subst h2
    exact barText_nil_iff.1 (h.trans (barText_nil_iff.2 rfl))
  have hz : ∀ {l : List (Int × Str)}, l ≠ [] → (∀ p ∈ l, '|' ∉ p.2) → splitOn '|' (barText l) = l.map (fun tup => kvText tup.1 tup.2) := by
    intro l hne hc
    unfold barText
    apply splitOn_join
    · simpa using hne
    · intro s hs
      obtain ⟨p, hp, rfl⟩ := List.mem_map.1 hs
      exact kvText_bar (hc p hp)
  have h3 : l.map (fun tup => kvText tup.1 tup.2) = m.map (fun tup => kvText tup.1 tup.2) := by
    rw [← hz h1 hl, ← hz h2 hm, h]
  exact List.map_injective_iff.2 (fun a b hab => by
    obtain ⟨e1, e2⟩ := kvText_inj hab
    exact Prod.ext e1 e2) h3

theorem getKv_fst (e : PEntry) : e.getKv.1 = barText e.getEntryKeys := rfl

theorem getEntryKeys_perm (e : PEntry) : e.getEntryKeys.Perm e.entries := sortBy_perm _ _

theorem getEntryKeys_sorted (e : PEntry) : e.getEntryKeys.Pairwise (fun a b => a.1 ≤ b.1) := by
  have := sortBy_sorted (fun a b : Int × Str => decide (a.1 ≤ b.1)) (by intro a b; simp; omega) (by intro a b c; simp; omega) e.entries
  exact this.imp (fun h => by simpa using h)

/-- with pairwise different ids the sorted pairs depend on the set of pairs only -/
theorem getEntryKeys_congr {e f : PEntry} (h : (Dict.keys e.entries).Nodup) (hp : e.entries.Perm f.entries) :
    e.getEntryKeys = f.getEntryKeys := by
  have hperm : e.getEntryKeys.Perm f.getEntryKeys := (getEntryKeys_perm e).trans (hp.trans (getEntryKeys_perm f).symm)
  have hk : (e.getEntryKeys.map Prod.fst).Nodup := ((getEntryKeys_perm e).map _).nodup_iff.2 h
  refine List.Perm.eq_of_pairwise ?_ (getEntryKeys_sorted e) (getEntryKeys_sorted f) hperm
  intro a b ha hb h1 h2
  have e1 : a.1 = b.1 := le_antisymm h1 h2
  have hb' := hperm.mem_iff.2 hb
  exact List.inj_on_of_nodup_map hk ha hb' e1

theorem perm_of_get? {d e : Dict Int Str} (hd : (Dict.keys d).Nodup) (he : (Dict.keys e).Nodup)
    (h : ∀ i, Dict.get? d i = Dict.get? e i) : d.Perm e := by
  refine (List.perm_ext_iff_of_nodup hd.of_map he.of_map).2 ?_
  intro p
  constructor
  · intro hp
    have := Dict.get?_of_mem hd (show (p.1, p.2) ∈ d from hp)
    rw [h] at this
    exact Dict.mem_of_get? this
  · intro hp
    have := Dict.get?_of_mem he (show (p.1, p.2) ∈ e from hp)
    rw [← h] at this
    exact Dict.mem_of_get? this

theorem get?_perm {d e : Dict Int Str} (hd : (Dict.keys d).Nodup) (h : d.Perm e) (i : Int) : Dict.get? d i = Dict.get? e i := by
  have he : (Dict.keys e).Nodup := (h.map _).nodup_iff.1 hd
  cases hx : Dict.get? d i with
  | some x => exact (Dict.get?_of_mem he (h.mem_iff.1 (Dict.mem_of_get? hx))).symm
  | none =>
    rw [Dict.get?_eq_none_iff] at hx
    symm
    rw [Dict.get?_eq_none_iff]
    intro hm
    exact hx ((h.map _).mem_iff.2 hm)

/-- the value found under the key of a row, when the keys of the rows are pairwise different -/
theorem toDict_get {ps : List Potential} (h : ((ps.flatMap (fun p => p.map PEntry.getKv)).map Prod.fst).Nodup) :
    (Potential.toDict ps).length = (ps.map List.length).sum ∧
      ∀ p ∈ ps, ∀ e ∈ p, Dict.get? (Potential.toDict ps) e.getKv.1 = some e.value := by
  have e1 : Potential.toDict ps = ps.flatMap (fun p => p.map PEntry.getKv) := Dict.ofList_nodup h
  rw [e1]
  constructor
  · rw [List.length_flatMap]
    congr 1
    apply List.map_congr_left
    intro p _
    simp
  · intro p hp e he
    refine Dict.get?_of_mem h ?_
    rw [List.mem_flatMap]
    exact ⟨p, hp, List.mem_map.2 ⟨e, he, rfl⟩⟩

end PyBBN
