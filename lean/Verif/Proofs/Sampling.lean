import Verif.Model.Sampling
import Verif.Proofs.Csv

/-! Binary search, cumulative sums, the tables of the sampler, and sorting. -/

namespace PyBBN

/-! ### binary search -/

theorem bsearch_spec (right : Nat → Bool) : ∀ (fuel lo hi : Nat), hi - lo ≤ fuel → lo ≤ hi →
    (∀ i j, lo ≤ i → i ≤ j → j < hi → right i = true → right j = true) →
    lo ≤ bsearch right fuel lo hi ∧ bsearch right fuel lo hi ≤ hi ∧
      (∀ i, lo ≤ i → i < bsearch right fuel lo hi → right i = false) ∧
      (∀ i, bsearch right fuel lo hi ≤ i → i < hi → right i = true)
  | 0, lo, hi, hf, hle, _ => by
      have : lo = hi := by omega
      subst this
      simp only [bsearch]
      exact ⟨le_refl _, le_refl _, fun i h1 h2 => absurd h2 (by omega), fun i h1 h2 => absurd h2 (by omega)⟩
  | fuel + 1, lo, hi, hf, hle, hm => by
      simp only [bsearch]
      by_cases hlt : lo < hi
      · rw [if_pos hlt]
        have m1 : lo ≤ (lo + hi) / 2 := by omega
        have m2 : (lo + hi) / 2 < hi := by omega
        by_cases hr : right ((lo + hi) / 2) = true
        · rw [if_pos hr]
          obtain ⟨a, b, c, d⟩ := bsearch_spec right fuel lo ((lo + hi) / 2) (by omega) m1
            (fun i j h1 h2 h3 h4 => hm i j h1 h2 (by omega) h4)
          refine ⟨a, by omega, c, ?_⟩
          intro i h1 h2
          by_cases hi' : i < (lo + hi) / 2
          · exact d i h1 hi'
          · exact hm _ i m1 (by omega) h2 hr
        · rw [if_neg hr]
          obtain ⟨a, b, c, d⟩ := bsearch_spec right fuel ((lo + hi) / 2 + 1) hi (by omega) (by omega)
            (fun i j h1 h2 h3 h4 => hm i j (by omega) h2 h3 h4)
          refine ⟨by omega, b, ?_, d⟩
          intro i h1 h2
          by_cases hi' : (lo + hi) / 2 + 1 ≤ i
          · exact c i hi' h2
          · by_contra hne
            have : right i = true := by simpa using hne
            exact hr (hm i _ h1 (by omega) m2 this)
      · rw [if_neg hlt]
        exact ⟨le_refl _, hle, fun i h1 h2 => absurd h2 (by omega), fun i h1 h2 => absurd h2 (by omega)⟩

/-! ### cumulative sums -/

theorem cumsum_length : ∀ (s : ℚ) (l : List ℚ), (cumsum s l).length = l.length
  | _, [] => rfl
  | s, x :: l => by simp [cumsum, cumsum_length]

theorem cumsum_getD : ∀ (l : List ℚ) (s : ℚ) (m : Nat), m < l.length → (cumsum s l).getD m 0 = s + (l.take (m + 1)).sum
  | [], s, m, h => by simp at h
  | x :: l, s, 0, h => by simp [cumsum]
  | x :: l, s, m + 1, h => by
      have := cumsum_getD l (s + x) m (by simpa using h)
      simp only [cumsum, List.getD_cons_succ, List.take_succ_cons, List.sum_cons] at this ⊢
      rw [this]; ring

theorem sum_take_mono {l : List ℚ} (h : ∀ x ∈ l, 0 ≤ x) {i j : Nat} (hij : i ≤ j) : (l.take i).sum ≤ (l.take j).sum := by
  have : l.take j = l.take i ++ (l.take j).drop i := by
    have := List.take_append_drop i (l.take j)
    rw [List.take_take, min_eq_left hij] at this
    exact this.symm
  rw [this, List.sum_append]
  have : 0 ≤ ((l.take j).drop i).sum := by
    apply List.sum_nonneg
    intro x hx
    exact h x (List.mem_of_mem_take (List.mem_of_mem_drop hx))
  linarith

/-- the index found in the cumulative sums of a row -/
theorem bisect_cumsum {row : List ℚ} (h : ∀ x ∈ row, 0 ≤ x) {p : ℚ} (hp : 0 ≤ p) {i : Nat} (hi : i < row.length) :
    bisect (cumsum 0 row) p = i ↔ (row.take i).sum ≤ p ∧ p < (row.take i).sum + row.getD i 0 := by
  have hmono : ∀ i j, 0 ≤ i → i ≤ j → j < row.length → decide (p < (cumsum 0 row).getD i 0) = true →
      decide (p < (cumsum 0 row).getD j 0) = true := by
    intro i j _ hij hj h1
    simp only [decide_eq_true_eq] at h1 ⊢
    rw [cumsum_getD row 0 i (by omega)] at h1
    rw [cumsum_getD row 0 j hj]
    have := sum_take_mono h (show i + 1 ≤ j + 1 by omega)
    linarith
  obtain ⟨_, b, c, d⟩ := bsearch_spec (fun m => decide (p < (cumsum 0 row).getD m 0)) row.length 0 row.length (by omega) (by omega) hmono
  have hb : bisect (cumsum 0 row) p = bsearch (fun m => decide (p < (cumsum 0 row).getD m 0)) row.length 0 row.length := by
    unfold bisect
    rw [cumsum_length]
  rw [hb]
  generalize bsearch (fun m => decide (p < (cumsum 0 row).getD m 0)) row.length 0 row.length = r at b c d
  have hsucc : ∀ k, k < row.length → (row.take (k + 1)).sum = (row.take k).sum + row.getD k 0 := by
    intro k hk
    rw [List.take_succ, List.sum_append, List.getD_eq_getElem?_getD, List.getElem?_eq_getElem hk]
    simp
  have hc : ∀ k, k < r → (row.take (k + 1)).sum ≤ p := by
    intro k hk
    have := c k (by omega) hk
    simp only [decide_eq_false_iff_not, not_lt] at this
    rw [cumsum_getD row 0 k (by omega)] at this
    linarith
  have hd : ∀ k, r ≤ k → k < row.length → p < (row.take (k + 1)).sum := by
    intro k hk hk'
    have := d k hk hk'
    simp only [decide_eq_true_eq] at this
    rw [cumsum_getD row 0 k hk'] at this
    linarith
  rw [← hsucc i hi]
  constructor
  · rintro rfl
    refine ⟨?_, hd r (le_refl _) hi⟩
    cases r with
    | zero => simpa using hp
    | succ k => exact hc k (by omega)
  · rintro ⟨h1, h2⟩
    by_contra hne
    rcases Nat.lt_or_gt_of_ne hne with hlt | hgt
    · cases i with
      | zero => omega
      | succ k =>
        have := hd k (by omega) (by omega)
        linarith
    · have := hc i hgt
      linarith

/-- if the first `n` entries cover `p`, one of them is found -/
theorem bisect_lt {row : List ℚ} (h : ∀ x ∈ row, 0 ≤ x) {p : ℚ} (hp0 : 0 ≤ p) {n : Nat} (hn : n ≤ row.length)
    (hp : p < (row.take n).sum) : bisect (cumsum 0 row) p < n := by
  have hn0 : 0 < n := by
    rcases Nat.eq_zero_or_pos n with h0 | h0
    · subst h0
      simp at hp
      linarith
    · exact h0
  by_contra hge
  have hmono : ∀ i j, 0 ≤ i → i ≤ j → j < row.length → decide (p < (cumsum 0 row).getD i 0) = true →
      decide (p < (cumsum 0 row).getD j 0) = true := by
    intro i j _ hij hj h1
    simp only [decide_eq_true_eq] at h1 ⊢
    rw [cumsum_getD row 0 i (by omega)] at h1
    rw [cumsum_getD row 0 j hj]
    have := sum_take_mono h (show i + 1 ≤ j + 1 by omega)
    linarith
  obtain ⟨_, b, c, _⟩ := bsearch_spec (fun m => decide (p < (cumsum 0 row).getD m 0)) row.length 0 row.length (by omega) (by omega) hmono
  have hb : bisect (cumsum 0 row) p = bsearch (fun m => decide (p < (cumsum 0 row).getD m 0)) row.length 0 row.length := by
    unfold bisect
    rw [cumsum_length]
  rw [hb] at hge
  have := c (n - 1) (by omega) (by omega)
  simp only [decide_eq_false_iff_not, not_lt] at this
  rw [cumsum_getD row 0 _ (by omega), Nat.sub_add_cancel hn0] at this
  linarith

/-! ### keys -/

theorem splitOn_join {c : Char} : ∀ {l : List Str}, l ≠ [] → (∀ s ∈ l, c ∉ s) → splitOn c (joinStr [c] l) = l
  | [], h, _ => absurd rfl h
  | [s], _, h => by simpa [joinStr] using splitOn_none (h s (by simp))
  | s :: t :: l, _, h => by
      have ih := splitOn_join (l := t :: l) (by simp) (fun x hx => h x (List.mem_cons_of_mem _ hx))
      have := splitOn_append (h s (by simp)) (joinStr [c] (t :: l))
      rw [ih] at this
      have e : joinStr [c] (s :: t :: l) = s ++ c :: joinStr [c] (t :: l) := by simp [joinStr]
      rw [e, this]

theorem kvText_comma {i : Int} {v : Str} (h : ',' ∉ v) : ',' ∉ kvText i v := by
  unfold kvText
  simp only [List.mem_append, not_or]
  exact ⟨⟨(csvText_strInt i).comma, by decide⟩, h⟩

theorem kvText_inj {i j : Int} {v w : Str} (h : kvText i v = kvText j w) : i = j ∧ v = w := by
  unfold kvText at h
  have h2 : strInt i ++ ("=".toList ++ v) = strInt j ++ ("=".toList ++ w) := by simpa using h
  obtain ⟨e1, e2⟩ := strInt_append_inj (by simp [Char.isDigit]) (by simp [Char.isDigit]) h2
  exact ⟨e1, List.append_cancel_left e2⟩

/-- without commas in the values a key determines the ids and the values -/
theorem rowKey_inj {ids ids' : List Int} {vs ws : List Str} (hne : ids ≠ []) (hne' : ids' ≠ []) (hv : vs.length = ids.length)
    (hw : ws.length = ids'.length) (cv : ∀ v ∈ vs, ',' ∉ v) (cw : ∀ v ∈ ws, ',' ∉ v) (h : rowKey ids vs = rowKey ids' ws) :
    ids = ids' ∧ vs = ws := by
  have hz : ∀ {ids : List Int} {vs : List Str}, ids ≠ [] → vs.length = ids.length → (∀ v ∈ vs, ',' ∉ v) →
      splitOn ',' (rowKey ids vs) = (ids.zip vs).map (fun iv => kvText iv.1 iv.2) := by
    intro ids vs hne hl hc
    unfold rowKey
    apply splitOn_join
    · intro e
      rw [List.map_eq_nil_iff, List.zip_eq_nil_iff] at e
      rcases e with e | e
      · exact hne e
      · subst e
        simp at hl
        exact hne (List.length_eq_zero_iff.1 hl.symm)
    · intro s hs
      obtain ⟨⟨i, v⟩, hm, rfl⟩ := List.mem_map.1 hs
      exact kvText_comma (hc v (List.of_mem_zip hm).2)
  have h2 : (ids.zip vs).map (fun iv => kvText iv.1 iv.2) = (ids'.zip ws).map (fun iv => kvText iv.1 iv.2) := by
    rw [← hz hne hv cv, ← hz hne' hw cw, h]
  have h3 : ids.zip vs = ids'.zip ws :=
    List.map_injective_iff.2 (fun a b hab => by
      obtain ⟨e1, e2⟩ := kvText_inj hab
      exact Prod.ext e1 e2) h2
  have h4 := congrArg List.unzip h3
  rw [List.unzip_zip (by omega), List.unzip_zip (by omega)] at h4
  exact ⟨congrArg Prod.fst h4, congrArg Prod.snd h4⟩

/-! ### tables -/

theorem chunks_get {α : Type} {n r : Nat} {l : List α} (hn : 0 < n) (h : r * n < l.length) :
    (chunks n l)[r]? = some ((l.drop (r * n)).take n) := by
  unfold chunks
  rw [List.getElem?_map, List.getElem?_range]
  · rfl
  · rw [Nat.lt_div_iff_mul_lt hn]
    omega

theorem sortBy_of_sorted {α : Type} {le : α → α → Bool} : ∀ {l : List α}, l.Pairwise (fun a b => le a b = true) → sortBy le l = l
  | [], _ => rfl
  | [a], _ => rfl
  | a :: b :: l, h => by
      rw [List.pairwise_cons] at h
      have ih := sortBy_of_sorted h.2
      show insertBy le a (sortBy le (b :: l)) = _
      rw [ih]
      simp [insertBy, h.1 b List.mem_cons_self]

/-- the rows of a table with parents -/
theorem table_rows (cs : List ℚ → List ℚ) {node : BbnNode} {parents : List BbnNode} (hne : parents ≠ [])
    (hsort : (parents.map (fun p => p.var.id)).Pairwise (· < ·)) (hval : ∀ p ∈ parents, p.var.values.Nodup)
    (hcomma : ∀ p ∈ parents, ∀ x ∈ p.var.values, ',' ∉ x) (hn : 0 < node.var.values.length) :
    ∃ d, Table.makeWith cs node parents = .ok ⟨node, parents, parents.map (fun p => p.var.id), .inr d⟩ ∧
      ∀ σ : Asg, InDom (parents.map BbnNode.var) σ → rowIdx (parents.map BbnNode.var) σ * node.var.values.length < node.probs.length →
        Dict.get? d (rowKey (parents.map (fun p => p.var.id)) ((parents.map (fun p => p.var.id)).map σ)) =
          some (cs ((node.probs.drop (rowIdx (parents.map BbnNode.var) σ * node.var.values.length)).take node.var.values.length)) := by
  have hs : sortBy (fun a b : BbnNode => decide (a.var.id ≤ b.var.id)) parents = parents := by
    apply sortBy_of_sorted
    rw [List.pairwise_map] at hsort
    exact hsort.imp (fun h => by simpa using le_of_lt h)
  refine ⟨_, by unfold Table.makeWith; simp only [hs]; rw [if_neg hne, if_neg (by omega)], ?_⟩
  intro σ hσ hlen
  have hvars : parents.map (fun p => p.var.values) = (parents.map BbnNode.var).map Variable.values := by
    rw [List.map_map]; rfl
  have hids : parents.map (fun p => p.var.id) = vids (parents.map BbnNode.var) := by
    unfold vids; rw [List.map_map]; rfl
  set keys := (product (parents.map (fun p => p.var.values))).map (rowKey (parents.map (fun p => p.var.id))) with hkeys
  set rws := (chunks node.var.values.length node.probs).map cs with hrws
  have hmemc : ∀ vs ∈ product (parents.map (fun p => p.var.values)), vs.length = (parents.map (fun p => p.var.id)).length ∧
      ∀ v ∈ vs, ',' ∉ v := by
    intro vs hvs
    refine ⟨by rw [mem_product_length _ _ hvs]; simp, ?_⟩
    have key : ∀ (ls : List (List Str)) (xs : List Str), xs ∈ product ls → (∀ l ∈ ls, ∀ x ∈ l, ',' ∉ x) → ∀ v ∈ xs, ',' ∉ v := by
      intro ls
      induction ls with
      | nil => intro xs hxs _ v hv; simp [product] at hxs; subst hxs; simp at hv
      | cons l ls ih =>
        intro xs hxs hl v hv
        simp only [product, List.mem_flatMap, List.mem_map] at hxs
        obtain ⟨x, hx, ys, hys, rfl⟩ := hxs
        rcases List.mem_cons.1 hv with e | hv
        · subst e; exact hl l List.mem_cons_self _ hx
        · exact ih ys hys (fun l' h' => hl l' (List.mem_cons_of_mem _ h')) v hv
    refine key _ _ hvs ?_
    intro l hl x hx
    obtain ⟨p, hp, rfl⟩ := List.mem_map.1 hl
    exact hcomma p hp x hx
  have hne' : parents.map (fun p => p.var.id) ≠ [] := by simpa using hne
  have hnd : keys.Nodup := by
    rw [hkeys]
    refine List.Nodup.map_on ?_ (nodup_product _ ?_)
    · intro vs hvs ws hws e
      exact (rowKey_inj hne' hne' (hmemc vs hvs).1 (hmemc ws hws).1 (hmemc vs hvs).2 (hmemc ws hws).2 e).2
    · intro l hl
      obtain ⟨p, hp, rfl⟩ := List.mem_map.1 hl
      exact hval p hp
  have hznd : ((keys.zip rws).map Prod.fst).Nodup := by
    have : ∀ (a : List Str) (b : List (List ℚ)), ((a.zip b).map Prod.fst).Sublist a := by
      intro a
      induction a with
      | nil => intro b; simp
      | cons x a ih =>
        intro b
        cases b with
        | nil => simp
        | cons y b => simpa using ih b
    exact hnd.sublist (this keys rws)
  have hd : (keys.zip rws).foldl (fun d kp => Dict.set d kp.1 kp.2) [] = keys.zip rws :=
    Dict.ofList_nodup hznd
  rw [hd]
  apply Dict.get?_of_mem hznd
  have hk : keys[rowIdx (parents.map BbnNode.var) σ]? =
      some (rowKey (parents.map (fun p => p.var.id)) ((parents.map (fun p => p.var.id)).map σ)) := by
    rw [hkeys, List.getElem?_map, hvars, product_rowIdx σ _ hσ, hids]
    rfl
  have hr : rws[rowIdx (parents.map BbnNode.var) σ]? = some (cs ((node.probs.drop
      (rowIdx (parents.map BbnNode.var) σ * node.var.values.length)).take node.var.values.length)) := by
    rw [hrws, List.getElem?_map, chunks_get hn hlen]
    rfl
  exact List.mem_of_getElem? (List.getElem?_zip_eq_some.2 ⟨hk, hr⟩)

/-! ### sorting -/

section
variable {α : Type}

theorem runFrom_append (ok : α → α → Bool) : ∀ (l : List α) (a : α), (runFrom ok a l).1 ++ (runFrom ok a l).2 = l
  | [], a => rfl
  | b :: l, a => by
      unfold runFrom
      split
      · simp [runFrom_append ok l b]
      · rfl

theorem runFrom_pairwise {ok : α → α → Bool} {M : α → Prop} {R : α → α → Prop} (hok : ∀ x y, M x → M y → ok x y = true → R x y)
    (htr : ∀ x y z, M x → M y → M z → R x y → R y z → R x z) : ∀ (l : List α) (a : α), M a → (∀ x ∈ l, M x) →
    (a :: (runFrom ok a l).1).Pairwise R
  | [], a, _, _ => by simp [runFrom]
  | b :: l, a, ha, hl => by
      unfold runFrom
      split
      · rename_i h
        have hb := hl b List.mem_cons_self
        have hl' : ∀ x ∈ l, M x := fun x hx => hl x (List.mem_cons_of_mem _ hx)
        have ih := runFrom_pairwise hok htr l b hb hl'
        have hab := hok a b ha hb h
        rw [List.pairwise_cons]
        refine ⟨?_, ih⟩
        intro c hc
        rcases List.mem_cons.1 hc with e | hc
        · subst e; exact hab
        · have hcl : c ∈ l := by
            rw [← runFrom_append ok l b]
            exact List.mem_append_left _ hc
          exact htr a b c ha hb (hl' c hcl) hab ((List.pairwise_cons.1 ih).1 c hc)
      · simp

theorem countRun_perm (lt : α → α → Bool) : ∀ (l : List α), ((countRun lt l).1 ++ (countRun lt l).2).Perm l
  | [] => by simp [countRun]
  | [a] => by simp [countRun]
  | a :: b :: l => by
      simp only [countRun]
      split
      · have := runFrom_append (fun x y => lt y x) (b :: l) a
        refine (List.Perm.append_right _ (List.reverse_perm _)).trans ?_
        rw [List.cons_append, this]
      · have := runFrom_append (fun x y => !(lt y x)) (b :: l) a
        rw [List.cons_append, this]

theorem binInsert_perm (lt : α → α → Bool) (s : List α) (p : α) : (binInsert lt s p).Perm (p :: s) := by
  unfold binInsert
  refine List.perm_middle.trans ?_
  rw [List.take_append_drop]

theorem cpythonSort_perm (lt : α → α → Bool) (l : List α) : (cpythonSort lt l).Perm l := by
  have key : ∀ (r s : List α), (r.foldl (binInsert lt) s).Perm (s ++ r) := by
    intro r
    induction r with
    | nil => intro s; simp
    | cons p r ih =>
      intro s
      rw [List.foldl_cons]
      refine (ih _).trans ?_
      refine (List.Perm.append_right r (binInsert_perm lt s p)).trans ?_
      rw [List.cons_append]
      exact List.perm_middle.symm
  exact (key _ _).trans (countRun_perm lt l)

/-- a strict total order on the elements in question -/
structure TotalOn (lt : α → α → Bool) (M : α → Prop) : Prop where
  irrefl : ∀ x, M x → lt x x = false
  trans : ∀ x y z, M x → M y → M z → lt x y = true → lt y z = true → lt x z = true
  total : ∀ x y, M x → M y → x ≠ y → lt x y = true ∨ lt y x = true

namespace TotalOn
variable {lt : α → α → Bool} {M : α → Prop} (h : TotalOn lt M)
include h

theorem asymm {x y : α} (hx : M x) (hy : M y) (e : lt x y = true) : lt y x = false := by
  by_contra hne
  have h1 : lt y x = true := by simpa using hne
  have := h.trans x y x hx hy hx e h1
  rw [h.irrefl x hx] at this
  cases this

theorem le_cases {x y : α} (hx : M x) (hy : M y) (e : lt y x = false) : x = y ∨ lt x y = true := by
  by_cases hxy : x = y
  · exact Or.inl hxy
  · rcases h.total x y hx hy hxy with h1 | h1
    · exact Or.inr h1
    · rw [e] at h1; cases h1

theorem le_trans {x y z : α} (hx : M x) (hy : M y) (hz : M z) (e1 : lt y x = false) (e2 : lt z y = false) : lt z x = false := by
  rcases h.le_cases hx hy e1 with rfl | h1
  · exact e2
  · rcases h.le_cases hy hz e2 with rfl | h2
    · exact e1
    · exact h.asymm hx hz (h.trans x y z hx hy hz h1 h2)

theorem countRun_sorted : ∀ (l : List α), (∀ x ∈ l, M x) → (countRun lt l).1.Pairwise (fun a b => lt b a = false)
  | [], _ => by simp [countRun]
  | [a], _ => by simp [countRun]
  | a :: b :: l, hl => by
      simp only [countRun]
      have ha := hl a List.mem_cons_self
      have hl' : ∀ x ∈ b :: l, M x := fun x hx => hl x (List.mem_cons_of_mem _ hx)
      split
      · rw [List.pairwise_reverse]
        refine runFrom_pairwise (ok := fun x y => lt y x) (R := fun a b => lt a b = false) ?_ ?_ (b :: l) a ha hl'
        · intro x y hx hy e
          exact h.asymm hy hx e
        · intro x y z hx hy hz e1 e2
          exact h.le_trans hz hy hx e2 e1
      · refine runFrom_pairwise (ok := fun x y => !(lt y x)) (R := fun a b => lt b a = false) ?_ ?_ (b :: l) a ha hl'
        · intro x y hx hy e
          simpa using e
        · intro x y z hx hy hz e1 e2
          exact h.le_trans hx hy hz e1 e2

theorem binInsert_sorted {s : List α} {p : α} (hs : s.Pairwise (fun a b => lt b a = false)) (hM : ∀ x ∈ s, M x) (hp : M p) :
    (binInsert lt s p).Pairwise (fun a b => lt b a = false) := by
  have hget : ∀ i (hi : i < s.length), insertsBefore lt s p i = lt p s[i] := by
    intro i hi
    unfold insertsBefore
    rw [List.getElem?_eq_getElem hi]
  have hmono : ∀ i j, 0 ≤ i → i ≤ j → j < s.length → insertsBefore lt s p i = true → insertsBefore lt s p j = true := by
    intro i j _ hij hj h1
    rw [hget i (by omega)] at h1
    rw [hget j hj]
    rcases Nat.lt_or_eq_of_le hij with hlt | heq
    · have hle := List.pairwise_iff_getElem.1 hs i j (by omega) hj hlt
      have m1 := hM _ (List.getElem_mem (show i < s.length by omega))
      have m2 := hM _ (List.getElem_mem hj)
      rcases h.le_cases m1 m2 hle with e | e
      · rw [← e]; exact h1
      · exact h.trans _ _ _ hp m1 m2 h1 e
    · subst heq; exact h1
  obtain ⟨_, b, c, d⟩ := bsearch_spec (insertsBefore lt s p) s.length 0 s.length (by omega) (by omega) hmono
  unfold binInsert
  generalize bsearch (insertsBefore lt s p) s.length 0 s.length = r at b c d
  simp only
  have htake : ∀ x ∈ s.take r, lt p x = false := by
    intro x hx
    obtain ⟨i, hi, rfl⟩ := List.getElem_of_mem hx
    rw [List.length_take] at hi
    rw [List.getElem_take]
    have := c i (by omega) (by omega)
    rw [hget i (by omega)] at this
    exact this
  have hdrop : ∀ x ∈ s.drop r, lt p x = true := by
    intro x hx
    obtain ⟨i, hi, rfl⟩ := List.getElem_of_mem hx
    rw [List.length_drop] at hi
    rw [List.getElem_drop]
    have := d (r + i) (by omega) (by omega)
    rw [hget _ (by omega)] at this
    exact this
  rw [List.pairwise_append]
  refine ⟨hs.sublist (List.take_sublist _ _), ?_, ?_⟩
  · rw [List.pairwise_cons]
    refine ⟨?_, hs.sublist (List.drop_sublist _ _)⟩
    intro x hx
    exact h.asymm hp (hM x (List.mem_of_mem_drop hx)) (hdrop x hx)
  · intro x hx y hy
    rcases List.mem_cons.1 hy with e | hy
    · subst e; exact htake x hx
    · have hs' := hs
      rw [← List.take_append_drop r s, List.pairwise_append] at hs'
      exact hs'.2.2 x hx y hy

theorem cpythonSort_sorted {l : List α} (hl : ∀ x ∈ l, M x) : (cpythonSort lt l).Pairwise (fun a b => lt b a = false) := by
  have key : ∀ (r s : List α), (∀ x ∈ r, M x) → (∀ x ∈ s, M x) → s.Pairwise (fun a b => lt b a = false) →
      (r.foldl (binInsert lt) s).Pairwise (fun a b => lt b a = false) := by
    intro r
    induction r with
    | nil => intro s _ _ hs; exact hs
    | cons p r ih =>
      intro s hr hsM hs
      rw [List.foldl_cons]
      apply ih _ (fun x hx => hr x (List.mem_cons_of_mem _ hx))
      · intro x hx
        rcases List.mem_cons.1 ((binInsert_perm lt s p).mem_iff.1 hx) with e | hx
        · subst e; exact hr _ List.mem_cons_self
        · exact hsM x hx
      · exact h.binInsert_sorted hs hsM (hr p List.mem_cons_self)
  have hp := countRun_perm lt l
  exact key _ _ (fun x hx => hl x (hp.mem_iff.1 (List.mem_append_right _ hx)))
    (fun x hx => hl x (hp.mem_iff.1 (List.mem_append_left _ hx))) (h.countRun_sorted l hl)

end TotalOn

/-- CPython's sort keeps the promise -/
def cpython (α : Type) : PySort α where
  sorted := cpythonSort
  perm := cpythonSort_perm
  asc lt l h1 h2 h3 := TotalOn.cpythonSort_sorted (M := (· ∈ l)) ⟨h1, fun x y z hx hy hz => h2 x hx y hy z hz,
    fun x y hx hy => h3 x hx y hy⟩ (fun x hx => hx)

end

end PyBBN
