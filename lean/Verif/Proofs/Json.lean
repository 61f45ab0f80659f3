import Verif.Spec.Json
import Verif.Proofs.Serde
import Verif.Proofs.SerdeTree

/-! # Reading JSON text undoes writing it -/

namespace PyBBN
namespace Json

/-! ## strings -/

theorem hexVal_hexDigit {d : Nat} (h : d < 16) : hexVal (hexDigit d) = some d :=
  (by decide : ∀ d : Fin 16, hexVal (hexDigit d.1) = some d.1) ⟨d, h⟩

theorem scanHex4_hex4 {n : Nat} (h : n < 65536) (rest : Str) : scanHex4 (hex4 n ++ rest) = some (n, rest) := by
  show scanHex4 (_ :: _ :: _ :: _ :: rest) = _
  simp only [scanHex4, hexVal_hexDigit (Nat.mod_lt _ (by norm_num : 16 > 0)), Option.bind_eq_bind, Option.bind_some]
  congr 2
  omega

theorem char_ofNat_toNat (c : Char) : Char.ofNat c.toNat = c := Char.ofNat_toNat c

theorem toNat_range (c : Char) : c.toNat < 0xd800 ∨ 0xdfff < c.toNat ∧ c.toNat < 0x110000 := c.valid

theorem scanEscape_u (s : Str) : scanEscape ('u' :: s) = (do
    let (u, r) ← scanHex4 s
    if 0xd800 ≤ u ∧ u ≤ 0xdbff then
      match r with
      | a :: b :: r =>
          if a = '\\' ∧ b = 'u' then do
            let (w, r) ← scanHex4 r
            if 0xdc00 ≤ w ∧ w ≤ 0xdfff then some (Char.ofNat (0x10000 + (u - 0xd800) * 1024 + (w - 0xdc00)), r) else none
          else none
      | _ => none
    else if 0xdc00 ≤ u ∧ u ≤ 0xdfff then none
    else some (Char.ofNat u, r)) := by
  rw [scanEscape, if_neg (by decide), if_neg (by decide), if_neg (by decide), if_neg (by decide), if_neg (by decide), if_neg (by decide),
    if_neg (by decide), if_neg (by decide), if_pos rfl]
  rfl

theorem scanEscape_bmp (c : Char) (h : c.toNat < 0x10000) (rest : Str) : scanEscape ('u' :: (hex4 c.toNat ++ rest)) = some (c, rest) := by
  rw [scanEscape_u, scanHex4_hex4 h]
  simp only [Option.bind_eq_bind, Option.bind_some]
  have := toNat_range c
  rw [if_neg (by omega), if_neg (by omega), char_ofNat_toNat]

theorem scanEscape_pair {u w : Nat} (hu : 0xd800 ≤ u ∧ u ≤ 0xdbff) (hw : 0xdc00 ≤ w ∧ w ≤ 0xdfff) (rest : Str) :
    scanEscape ('u' :: (hex4 u ++ ('\\' :: 'u' :: (hex4 w ++ rest)))) = some (Char.ofNat (0x10000 + (u - 0xd800) * 1024 + (w - 0xdc00)), rest) := by
  rw [scanEscape_u, scanHex4_hex4 (by omega)]
  simp only [Option.bind_eq_bind, Option.bind_some]
  rw [if_pos hu]
  simp only [and_self, if_true]
  rw [scanHex4_hex4 (by omega)]
  simp only [Option.bind_some]
  rw [if_pos hw]

theorem surrogates {n u w : Nat} (hn : 0x10000 ≤ n) (hu : u = 0xd800 + (n - 0x10000) / 1024) (hw : w = 0xdc00 + (n - 0x10000) % 1024) :
    0x10000 + (u - 0xd800) * 1024 + (w - 0xdc00) = n := by omega

/-- reading back one character -/
theorem scanStr_escChar (n : Nat) (c : Char) (rest : Str) :
    scanStr (n + 1) (escChar c ++ rest) = (scanStr n rest).map (fun p => (c :: p.1, p.2)) := by
  have fin : ∀ (o : Option (Str × Str)) (d : Char), (do let (t, r) ← o; some (d :: t, r)) = o.map (fun p => (d :: p.1, p.2)) := by
    intro o d; cases o <;> rfl
  have esc : ∀ (s r : Str) (d : Char), scanEscape s = some (d, r) →
      scanStr (n + 1) ('\\' :: s) = (scanStr n r).map (fun p => (d :: p.1, p.2)) := by
    intro s r d h
    rw [scanStr, if_neg (by decide), if_pos rfl, h]
    exact fin _ _
  unfold escChar
  split_ifs with h1 h2 h3 h4 h5 h6 h7 h8 h9
  · subst h1; exact esc _ _ _ rfl
  · subst h2; exact esc _ _ _ rfl
  · show scanStr (n + 1) (c :: rest) = _
    rw [scanStr, if_neg h1, if_neg h2, if_neg (by omega)]
    exact fin _ _
  · subst h4; exact esc _ _ _ rfl
  · subst h5; exact esc _ _ _ rfl
  · subst h6; exact esc _ _ _ rfl
  · refine esc _ _ _ ?_
    rw [← char_ofNat_toNat c, h7]; rfl
  · refine esc _ _ _ ?_
    rw [← char_ofNat_toNat c, h8]; rfl
  · rw [List.cons_append, List.cons_append]
    exact esc _ _ _ (scanEscape_bmp c h9 rest)
  · rw [List.append_assoc, List.cons_append, List.cons_append, List.cons_append, List.cons_append]
    have hr := toNat_range c
    have := scanEscape_pair (u := 0xd800 + (c.toNat - 0x10000) / 1024) (w := 0xdc00 + (c.toNat - 0x10000) % 1024) (by omega) (by omega) rest
    rw [surrogates (by omega : 0x10000 ≤ c.toNat) rfl rfl, char_ofNat_toNat] at this
    exact esc _ _ _ this

theorem escChar_ne (c : Char) : escChar c ≠ [] := by
  unfold escChar
  split_ifs <;> simp

theorem flatMap_length (s : Str) : s.length ≤ (s.flatMap escChar).length := by
  induction s with
  | nil => simp
  | cons c s ih =>
      have : 0 < (escChar c).length := List.length_pos_iff.2 (escChar_ne c)
      simp only [List.flatMap_cons, List.length_append, List.length_cons]
      omega

theorem scanStr_quote {n : Nat} (s rest : Str) (h : s.length < n) : scanStr n (s.flatMap escChar ++ '"' :: rest) = some (s, rest) := by
  induction s generalizing n with
  | nil =>
      obtain ⟨m, rfl⟩ : ∃ m, n = m + 1 := ⟨n - 1, by simp at h; omega⟩
      rfl
  | cons c s ih =>
      obtain ⟨m, rfl⟩ : ∃ m, n = m + 1 := ⟨n - 1, by omega⟩
      rw [List.flatMap_cons, List.append_assoc, scanStr_escChar, ih (by simpa using h)]
      rfl

/-! ## numbers -/

/-- what may follow a number -/
def NumEnd (rest : Str) : Prop := ∀ c ∈ rest.head?, c.isDigit = false ∧ c ≠ '.' ∧ c ≠ 'e' ∧ c ≠ 'E'

theorem takeWhile_digits {ds t : Str} (h : ∀ c ∈ ds, c.isDigit = true) (ht : ∀ c ∈ t.head?, c.isDigit = false) :
    (ds ++ t).takeWhile Char.isDigit = ds ∧ (ds ++ t).dropWhile Char.isDigit = t := by
  induction ds with
  | nil =>
      cases t with
      | nil => simp
      | cons c t => simp [ht c (by simp)]
  | cons d ds ih =>
      have hd := h d (by simp)
      obtain ⟨h1, h2⟩ := ih (fun c hc => h c (by simp [hc]))
      simp [hd, h1, h2]

/-- the integer part of a number -/
def IntShape (ip : Str) : Prop := ip = ['0'] ∨ ∃ d ds, ip = d :: ds ∧ d ≠ '0' ∧ ∀ c ∈ ip, c.isDigit = true
def FracShape (fr : Str) : Prop := fr = [] ∨ ∃ ds, fr = '.' :: ds ∧ ds ≠ [] ∧ ∀ c ∈ ds, c.isDigit = true
def ExpShape (ex : Str) : Prop :=
  ex = [] ∨ ∃ e sg' ds, ex = e :: (sg' ++ ds) ∧ (e = 'e' ∨ e = 'E') ∧ (sg' = [] ∨ sg' = ['+'] ∨ sg' = ['-']) ∧ ds ≠ [] ∧
    ∀ c ∈ ds, c.isDigit = true

theorem intPart_of {ip t : Str} (h : IntShape ip) (ht : ∀ c ∈ t.head?, c.isDigit = false) : intPart (ip ++ t) = some (ip, t) := by
  rcases h with rfl | ⟨d, ds, rfl, h0, hd⟩
  · rfl
  · obtain ⟨h1, h2⟩ := takeWhile_digits (ds := ds) (t := t) (fun c hc => hd c (by simp [hc])) ht
    rw [List.cons_append, intPart, if_neg h0, if_pos (hd d (by simp)), h1, h2]

theorem fracPart_of {fr t : Str} (h : FracShape fr) (ht : ∀ c ∈ t.head?, c.isDigit = false ∧ c ≠ '.') : fracPart (fr ++ t) = (fr, t) := by
  rcases h with rfl | ⟨ds, rfl, hne, hd⟩
  · cases t with
    | nil => rfl
    | cons c t =>
        show (if _ then _ else _) = _
        rw [if_neg (fun h => (ht c (by simp)).2 h.1)]
        rfl
  · obtain ⟨h1, h2⟩ := takeWhile_digits (t := t) hd (fun c hc => (ht c hc).1)
    rw [List.cons_append]
    simp only [fracPart]
    rw [if_pos ⟨trivial, by rw [h1]; exact hne⟩, h1, h2]

theorem expPart_of {ex t : Str} (h : ExpShape ex) (ht : ∀ c ∈ t.head?, c.isDigit = false ∧ c ≠ 'e' ∧ c ≠ 'E') : expPart (ex ++ t) = (ex, t) := by
  rcases h with rfl | ⟨e, sg, ds, rfl, he, hsg, hne, hd⟩
  · cases t with
    | nil => rfl
    | cons c t =>
        show (if _ then _ else _) = _
        rw [if_neg (fun h => by rcases h.1 with h | h <;> [exact (ht c (by simp)).2.1 h; exact (ht c (by simp)).2.2 h])]
        rfl
  · obtain ⟨h1, h2⟩ := takeWhile_digits (t := t) hd (fun c hc => (ht c hc).1)
    have hs : expSign (sg ++ (ds ++ t)) = (sg, ds ++ t) := by
      rcases hsg with rfl | rfl | rfl
      · cases ds with
        | nil => exact absurd rfl hne
        | cons d ds =>
            have hdd := hd d (by simp)
            show (if _ then _ else _) = _
            rw [if_neg (by rintro (rfl | rfl) <;> exact absurd hdd (by decide))]
            rfl
      · rfl
      · rfl
    rw [List.cons_append, List.append_assoc]
    show (if _ then _ else _) = _
    rw [hs]
    dsimp only
    rw [if_pos ⟨he, by rw [h1]; exact hne⟩, h1, h2]

theorem minusSign_of {sg ip t : Str} (hs : sg = [] ∨ sg = ['-']) (hi : IntShape ip) : minusSign (sg ++ (ip ++ t)) = (sg, ip ++ t) := by
  rcases hs with rfl | rfl
  · rcases hi with rfl | ⟨d, ds, rfl, _, hd⟩
    · rfl
    · show (if _ then _ else _) = _
      have := hd d (by simp)
      rw [if_neg (by rintro rfl; exact absurd this (by decide))]
      rfl
  · rfl

theorem head_append {a b : Str} {P : Char → Prop} (ha : ∀ c ∈ a.head?, P c) (hb : a = [] → ∀ c ∈ b.head?, P c) : ∀ c ∈ (a ++ b).head?, P c := by
  cases a with
  | nil => exact hb rfl
  | cons x a => simpa using ha

theorem number_of (jf : JsonFloat) {sg ip fr ex rest : Str} (hs : sg = [] ∨ sg = ['-']) (hi : IntShape ip) (hf : FracShape fr) (he : ExpShape ex)
    (hr : NumEnd rest) : number jf (sg ++ (ip ++ (fr ++ (ex ++ rest)))) =
      if fr = [] ∧ ex = [] then
        match parseInt (sg ++ ip) with
        | .ok i => some (.int i, rest)
        | .error _ => none
      else
        match jf.parse (sg ++ (ip ++ (fr ++ ex))) with
        | .ok q => some (.flt q, rest)
        | .error _ => none := by
  have hex : ∀ c ∈ (ex ++ rest).head?, c.isDigit = false ∧ c ≠ '.' := by
    refine head_append ?_ (fun _ c hc => ⟨(hr c hc).1, (hr c hc).2.1⟩)
    rcases he with rfl | ⟨e, _, _, rfl, h, _⟩
    · simp
    · rcases h with rfl | rfl <;> simp <;> decide
  have hfr : ∀ c ∈ (fr ++ (ex ++ rest)).head?, c.isDigit = false := by
    refine head_append ?_ (fun _ c hc => (hex c hc).1)
    rcases hf with rfl | ⟨_, rfl, _⟩
    · simp
    · simp
  unfold number
  rw [minusSign_of hs hi]
  dsimp only
  rw [intPart_of hi hfr]
  simp only [Option.bind_eq_bind, Option.bind_some]
  rw [fracPart_of hf hex]
  dsimp only
  rw [expPart_of he (fun c hc => ⟨(hr c hc).1, (hr c hc).2.2⟩)]
  rfl

theorem toDigits_shape (n : Nat) : IntShape (Nat.toDigits 10 n) := by
  rcases Nat.eq_zero_or_pos n with rfl | hn
  · exact Or.inl (by decide)
  · refine Or.inr ?_
    have hd : ∀ c ∈ Nat.toDigits 10 n, c.isDigit = true := fun c hc => Nat.isDigit_of_mem_toDigits (by norm_num) (by norm_num) hc
    suffices h : ∃ d ds, Nat.toDigits 10 n = d :: ds ∧ d ≠ '0' by
      obtain ⟨d, ds, h1, h2⟩ := h
      exact ⟨d, ds, h1, h2, hd⟩
    clear hd
    induction n using Nat.strongRecOn with
    | ind n ih =>
        by_cases h : n < 10
        · rw [Nat.toDigits_of_lt_base h]
          exact ⟨_, [], rfl, (by decide : ∀ d : Fin 10, 0 < d.1 → Nat.digitChar d.1 ≠ '0') ⟨n, h⟩ hn⟩
        · obtain ⟨d, ds, h1, h2⟩ := ih (n / 10) (by omega) (by omega)
          refine ⟨d, ds ++ [Nat.digitChar (n % 10)], ?_, h2⟩
          rw [Nat.toDigits_of_base_le (by norm_num) (by omega), h1]
          rfl

theorem strInt_shape (i : Int) : ∃ sg ip, strInt i = sg ++ ip ∧ (sg = [] ∨ sg = ['-']) ∧ IntShape ip := by
  unfold strInt
  split_ifs
  · exact ⟨['-'], _, rfl, Or.inr rfl, toDigits_shape _⟩
  · exact ⟨[], _, rfl, Or.inl rfl, toDigits_shape _⟩

theorem number_int (jf : JsonFloat) (i : Int) {rest : Str} (hr : NumEnd rest) : number jf (strInt i ++ rest) = some (.int i, rest) := by
  obtain ⟨sg, ip, e, hs, hi⟩ := strInt_shape i
  have := number_of jf (fr := []) (ex := []) hs hi (Or.inl rfl) (Or.inl rfl) hr
  rw [if_pos ⟨rfl, rfl⟩, ← e, parseInt_strInt] at this
  rw [e, List.append_assoc]
  exact this

theorem number_flt (jf : JsonFloat) (q : ℚ) {rest : Str} (hr : NumEnd rest) : number jf (jf.fmt q ++ rest) = some (.flt q, rest) := by
  obtain ⟨sg, ip, fr, ex, e, hs, hi, hf, he, hne⟩ := jf.shape q
  have := number_of jf hs hi hf he hr
  rw [if_neg (by rintro ⟨h1, h2⟩; rcases hne with h | h <;> contradiction), ← e, jf.round] at this
  rw [e]
  simpa using this

/-- how a number starts -/
theorem shape_head {sg ip t : Str} (hs : sg = [] ∨ sg = ['-']) (hi : IntShape ip) :
    ∃ c r, sg ++ (ip ++ t) = c :: r ∧ (c = '-' ∨ c.isDigit = true) := by
  rcases hs with rfl | rfl
  · rcases hi with rfl | ⟨d, ds, rfl, _, hd⟩
    · exact ⟨_, _, rfl, Or.inr (by decide)⟩
    · exact ⟨_, _, rfl, Or.inr (hd d (by simp))⟩
  · exact ⟨_, _, rfl, Or.inl rfl⟩

theorem value_number (jf : JsonFloat) (n : Nat) {c : Char} {r : Str} (hc : c = '-' ∨ c.isDigit = true) :
    value jf (n + 1) (c :: r) = number jf (c :: r) := by
  have h : ∀ d : Char, d ≠ '-' → d.isDigit = false → c ≠ d := by
    rintro d h1 h2 rfl
    rcases hc with h | h
    · exact h1 h
    · rw [h2] at h; cases h
  rw [value, if_neg (h _ (by decide) (by decide)), if_neg (h _ (by decide) (by decide)), if_neg (h _ (by decide) (by decide)),
    if_neg (h _ (by decide) (by decide)), if_neg (h _ (by decide) (by decide)), if_neg (h _ (by decide) (by decide))]

/-! ## blanks -/

theorem skipWs_ws {w t : Str} (hw : ∀ c ∈ w, isWs c = true) (ht : ∀ c ∈ t.head?, isWs c = false) : skipWs (w ++ t) = t := by
  induction w with
  | nil =>
      cases t with
      | nil => rfl
      | cons c t => simp [skipWs, ht c (by simp)]
  | cons d w ih =>
      have := ih (fun c hc => hw c (by simp [hc]))
      simpa [skipWs, hw d (by simp)] using this

theorem brk_ws (ind : Option Nat) (lvl : Nat) : ∀ c ∈ brk ind lvl, isWs c = true := by
  unfold brk
  cases ind with
  | none => simp
  | some k =>
      intro c hc
      rcases List.mem_cons.1 hc with rfl | hc
      · rfl
      · rw [(List.mem_replicate.1 hc).2]; rfl

theorem sep_ws (ind : Option Nat) (lvl : Nat) : ∀ c ∈ sep ind lvl, isWs c = true := by
  unfold sep
  cases ind with
  | none => simp [isWs]
  | some k =>
      intro c hc
      rcases List.mem_cons.1 hc with rfl | hc
      · rfl
      · rw [(List.mem_replicate.1 hc).2]; rfl

theorem numEnd_ws {w t : Str} (hw : ∀ c ∈ w, isWs c = true) (ht : NumEnd t) : NumEnd (w ++ t) := by
  refine head_append (fun c hc => ?_) (fun _ => ht)
  have := hw c (List.mem_of_mem_head? hc)
  simp only [isWs, Bool.or_eq_true, decide_eq_true_eq] at this
  rcases this with ((rfl | rfl) | rfl) | rfl <;> decide

theorem numEnd_cons {c : Char} (h : c.isDigit = false ∧ c ≠ '.' ∧ c ≠ 'e' ∧ c ≠ 'E') (t : Str) : NumEnd (c :: t) := by
  intro d hd
  simp only [List.head?_cons, Option.mem_def, Option.some.injEq] at hd
  exact hd ▸ h

theorem isWs_digit {c : Char} (h : c = '-' ∨ c.isDigit = true) : isWs c = false ∧ c ≠ ']' ∧ c ≠ '}' := by
  rcases h with rfl | h
  · decide
  · refine ⟨?_, by rintro rfl; exact absurd h (by decide), by rintro rfl; exact absurd h (by decide)⟩
    by_contra hw
    simp only [isWs, Bool.not_eq_false, Bool.or_eq_true, decide_eq_true_eq] at hw
    rcases hw with ((rfl | rfl) | rfl) | rfl <;> exact absurd h (by decide)

/-- how a value starts -/
theorem dumps_head (jf : JsonFloat) (ind : Option Nat) (lvl : Nat) (v : JVal) :
    ∃ c r, dumps jf ind lvl v = c :: r ∧ isWs c = false ∧ c ≠ ']' ∧ c ≠ '}' := by
  have lit : ∀ (s : Str) (c : Char) (r : Str), s = c :: r → isWs c = false ∧ c ≠ ']' ∧ c ≠ '}' →
      ∃ c r, s = c :: r ∧ isWs c = false ∧ c ≠ ']' ∧ c ≠ '}' := fun s c r h1 h2 => ⟨c, r, h1, h2⟩
  match v with
  | .null => exact lit _ 'n' _ (by rw [dumps]; rfl) (by decide)
  | .bool true => exact lit _ 't' _ (by rw [dumps]; rfl) (by decide)
  | .bool false => exact lit _ 'f' _ (by rw [dumps]; rfl) (by decide)
  | .int i =>
      obtain ⟨sg, ip, e, hs, hi⟩ := strInt_shape i
      obtain ⟨c, r, h1, h2⟩ := shape_head (t := []) hs hi
      exact lit _ c r (by rw [dumps, e, ← h1, List.append_nil]) (isWs_digit h2)
  | .flt q =>
      obtain ⟨sg, ip, fr, ex, e, hs, hi, _⟩ := jf.shape q
      obtain ⟨c, r, h1, h2⟩ := shape_head (t := fr ++ ex) hs hi
      exact lit _ c r (by rw [dumps, e, ← h1]) (isWs_digit h2)
  | .str s => exact lit _ '"' _ (by rw [dumps]; rfl) (by decide)
  | .arr [] => exact lit _ '[' _ (by rw [dumps]) (by decide)
  | .arr (x :: xs) => exact lit _ '[' _ (by rw [dumps]) (by decide)
  | .obj [] => exact lit _ '{' _ (by rw [dumps]) (by decide)
  | .obj ((k, x) :: kvs) => exact lit _ '{' _ (by rw [dumps]) (by decide)

theorem quote_append (t z : Str) : quote t ++ z = '"' :: (t.flatMap escChar ++ '"' :: z) := by
  simp [quote]

theorem quote_length (t : Str) : t.length + 2 ≤ (quote t).length := by
  have := flatMap_length t
  simp only [quote, List.length_cons, List.length_append, List.length_nil]
  omega

theorem key_json (k : PyKey) : k.json = .str (keyText k) := by cases k <;> rfl

theorem dumpsItems_end (jf : JsonFloat) (ind : Option Nat) (lvl lvl' : Nat) (xs : List JVal) (rest : Str) :
    NumEnd (dumpsItems jf ind lvl xs ++ (brk ind lvl' ++ ']' :: rest)) := by
  cases xs with
  | nil => rw [dumpsItems, List.nil_append]; exact numEnd_ws (brk_ws _ _) (numEnd_cons (by decide) _)
  | cons y ys => rw [dumpsItems]; exact numEnd_cons (by decide) _

theorem dumpsPairs_end (jf : JsonFloat) (ind : Option Nat) (lvl lvl' : Nat) (kvs : List (PyKey × JVal)) (rest : Str) :
    NumEnd (dumpsPairs jf ind lvl kvs ++ (brk ind lvl' ++ '}' :: rest)) := by
  match kvs with
  | [] => rw [dumpsPairs, List.nil_append]; exact numEnd_ws (brk_ws _ _) (numEnd_cons (by decide) _)
  | (k, y) :: ys => rw [dumpsPairs]; exact numEnd_cons (by decide) _

/-! ## reading back -/

mutual
/-- **reading undoes writing**, whatever follows -/
theorem value_dumps (jf : JsonFloat) (ind : Option Nat) (v : JVal) (lvl n : Nat) (rest : Str) (hr : NumEnd rest)
    (hn : (dumps jf ind lvl v).length < n) : value jf n (dumps jf ind lvl v ++ rest) = some (v.json, rest) := by
  obtain ⟨m, rfl⟩ : ∃ m, n = m + 1 := ⟨n - 1, by omega⟩
  match hv : v with
  | .null => rw [dumps, JVal.json]; rfl
  | .bool true => rw [dumps, JVal.json]; rfl
  | .bool false => rw [dumps, JVal.json]; rfl
  | .int i =>
      rw [dumps, JVal.json]
      obtain ⟨sg, ip, e, hs, hi⟩ := strInt_shape i
      obtain ⟨c, r, h1, h2⟩ := shape_head (t := rest) hs hi
      have h3 : strInt i ++ rest = c :: r := by rw [e, ← h1, List.append_assoc]
      rw [h3, value_number jf m h2, ← h3, number_int jf i hr]
  | .flt q =>
      rw [dumps, JVal.json]
      obtain ⟨sg, ip, fr, ex, e, hs, hi, _⟩ := jf.shape q
      obtain ⟨c, r, h1, h2⟩ := shape_head (t := fr ++ ex ++ rest) hs hi
      have h3 : jf.fmt q ++ rest = c :: r := by rw [e, ← h1]; simp
      rw [h3, value_number jf m h2, ← h3, number_flt jf q hr]
  | .str s =>
      rw [dumps] at hn
      rw [dumps, JVal.json, quote_append, value, if_pos rfl, scanStr_quote s rest (by have := quote_length s; omega)]
      rfl
  | .arr [] => rw [dumps, JVal.json, JVal.jsonList]; rfl
  | .arr (x :: xs) =>
      rw [dumps] at hn
      simp only [List.length_cons, List.length_append] at hn
      have ih := items_dumps jf ind x xs (lvl + 1) lvl m rest (by omega)
      rw [dumps, JVal.json, JVal.jsonList, List.cons_append, value, if_neg (by decide), if_neg (by decide), if_pos rfl]
      simp only [List.append_assoc, List.cons_append, List.nil_append]
      obtain ⟨c, r, e, h1, h2, h3⟩ := dumps_head jf ind (lvl + 1) x
      rw [e] at ih ⊢
      rw [List.cons_append] at ih ⊢
      rw [skipWs_ws (brk_ws _ _) (by simpa using h1)]
      simp only []
      rw [if_neg h2, ih]
      rfl
  | .obj [] => rw [dumps, JVal.json, JVal.jsonPairs]; rfl
  | .obj ((k, x) :: kvs) =>
      rw [dumps] at hn
      simp only [List.length_cons, List.length_append] at hn
      have ih := pairs_dumps jf ind k x kvs (lvl + 1) lvl m rest (by omega)
      rw [dumps, JVal.json, JVal.jsonPairs, List.cons_append, value, if_neg (by decide), if_pos rfl]
      simp only [List.append_assoc, List.cons_append, List.nil_append]
      rw [quote_append] at ih ⊢
      rw [skipWs_ws (brk_ws _ _) (by intro c hc; simp only [List.head?_cons, Option.mem_def, Option.some.injEq] at hc; subst hc; rfl)]
      simp only []
      rw [if_neg (by decide), ih]
      rfl
  termination_by sizeOf v
  decreasing_by all_goals (subst hv; simp; omega)
theorem items_dumps (jf : JsonFloat) (ind : Option Nat) (x : JVal) (xs : List JVal) (lvl lvl' n : Nat) (rest : Str)
    (hn : (dumps jf ind lvl x).length + (dumpsItems jf ind lvl xs).length + 1 < n) :
    items jf n (dumps jf ind lvl x ++ (dumpsItems jf ind lvl xs ++ (brk ind lvl' ++ ']' :: rest))) = some (x.json :: JVal.jsonList xs, rest) := by
  obtain ⟨m, rfl⟩ : ∃ m, n = m + 1 := ⟨n - 1, by omega⟩
  have hx := value_dumps jf ind x lvl m _ (dumpsItems_end jf ind lvl lvl' xs rest) (by omega)
  rw [items, hx]
  simp only [Option.bind_eq_bind, Option.bind_some]
  match hv : xs with
  | [] =>
      rw [dumpsItems, JVal.jsonList, List.nil_append, skipWs_ws (brk_ws _ _) (by intro c hc; simp only [List.head?_cons, Option.mem_def, Option.some.injEq] at hc; subst hc; rfl)]
      rfl
  | y :: ys =>
      rw [dumpsItems] at hn
      simp only [List.length_cons, List.length_append] at hn
      have ih := items_dumps jf ind y ys lvl lvl' m rest (by omega)
      rw [dumpsItems, JVal.jsonList]
      simp only [List.append_assoc, List.cons_append]
      have h0 : ∀ z : Str, skipWs (',' :: z) = ',' :: z := fun z => rfl
      rw [h0]
      simp only []
      rw [if_neg (by decide), if_pos trivial]
      obtain ⟨c, r, e, h1, h2, h3⟩ := dumps_head jf ind lvl y
      rw [skipWs_ws (sep_ws _ _) (by rw [e]; simpa using h1), ih]
      rfl
  termination_by sizeOf x + sizeOf xs + 1
  decreasing_by
    · omega
    · subst hv; simp; omega
theorem pairs_dumps (jf : JsonFloat) (ind : Option Nat) (k : PyKey) (x : JVal) (kvs : List (PyKey × JVal)) (lvl lvl' n : Nat) (rest : Str)
    (hn : (quote (keyText k)).length + (dumps jf ind lvl x).length + (dumpsPairs jf ind lvl kvs).length + 3 < n) :
    pairs jf n (quote (keyText k) ++ (':' :: ' ' :: (dumps jf ind lvl x ++ (dumpsPairs jf ind lvl kvs ++ (brk ind lvl' ++ '}' :: rest))))) =
      some ((k.json, x.json) :: JVal.jsonPairs kvs, rest) := by
  obtain ⟨m, rfl⟩ : ∃ m, n = m + 1 := ⟨n - 1, by omega⟩
  have hx := value_dumps jf ind x lvl m _ (dumpsPairs_end jf ind lvl lvl' kvs rest) (by omega)
  rw [quote_append, pairs, if_pos rfl, scanStr_quote _ _ (by have := quote_length (keyText k); omega)]
  simp only [Option.bind_eq_bind, Option.bind_some]
  have h0 : ∀ z : Str, skipWs (':' :: z) = ':' :: z := fun z => rfl
  rw [h0]
  simp only []
  rw [if_pos trivial]
  have h1 : ∀ z : Str, skipWs (' ' :: (dumps jf ind lvl x ++ z)) = dumps jf ind lvl x ++ z := by
    intro z
    obtain ⟨c, r, e, h1, h2, h3⟩ := dumps_head jf ind lvl x
    exact skipWs_ws (w := [' ']) (by simp [isWs]) (by rw [e]; simpa using h1)
  rw [h1, hx]
  simp only [Option.bind_some]
  rw [key_json]
  match hv : kvs with
  | [] =>
      rw [dumpsPairs, JVal.jsonPairs, List.nil_append, skipWs_ws (brk_ws _ _) (by intro c hc; simp only [List.head?_cons, Option.mem_def, Option.some.injEq] at hc; subst hc; rfl)]
      rfl
  | (l, y) :: ys =>
      rw [dumpsPairs] at hn
      simp only [List.length_cons, List.length_append] at hn
      have ih := pairs_dumps jf ind l y ys lvl lvl' m rest (by omega)
      rw [dumpsPairs, JVal.jsonPairs]
      simp only [List.append_assoc, List.cons_append]
      have h0 : ∀ z : Str, skipWs (',' :: z) = ',' :: z := fun z => rfl
      rw [h0]
      simp only []
      rw [if_neg (by decide), if_pos trivial]
      rw [skipWs_ws (sep_ws _ _) (by rw [quote_append]; intro c hc; simp only [List.head?_cons, Option.mem_def, Option.some.injEq] at hc; subst hc; rfl), ih]
      rfl
  termination_by sizeOf x + sizeOf kvs + 1
  decreasing_by
    · omega
    · subst hv; simp; omega
end

/-! ## the characters of the text -/

/-- a printable ASCII character or a line feed -/
def Printable (c : Char) : Prop := c = '\n' ∨ (32 ≤ c.toNat ∧ c.toNat ≤ 126)

instance : DecidablePred Printable := fun c => by unfold Printable; infer_instance

theorem printable_digit {c : Char} (h : c.isDigit = true) : Printable c := by
  have : 48 ≤ c.toNat ∧ c.toNat ≤ 57 := by
    simp only [Char.isDigit, Bool.and_eq_true, decide_eq_true_eq] at h
    exact ⟨UInt32.le_iff_toNat_le.1 h.1, UInt32.le_iff_toNat_le.1 h.2⟩
  exact Or.inr ⟨by omega, by omega⟩

theorem printable_hex (n : Nat) : ∀ c ∈ hex4 n, Printable c := by
  have h : ∀ d < 16, Printable (hexDigit d) := by
    intro d hd
    exact (by decide : ∀ d : Fin 16, Printable (hexDigit d.1)) ⟨d, hd⟩
  intro c hc
  simp only [hex4, List.mem_cons, List.not_mem_nil, or_false] at hc
  rcases hc with rfl | rfl | rfl | rfl <;> exact h _ (Nat.mod_lt _ (by norm_num))

theorem printable_lit {s : Str} (h : ∀ c ∈ s, Printable c) {t : Str} (ht : ∀ c ∈ t, Printable c) : ∀ c ∈ s ++ t, Printable c := by
  intro c hc
  rcases List.mem_append.1 hc with hc | hc
  · exact h c hc
  · exact ht c hc

theorem printable_cons {a : Char} (h : Printable a) {t : Str} (ht : ∀ c ∈ t, Printable c) : ∀ c ∈ a :: t, Printable c := by
  intro c hc
  rcases List.mem_cons.1 hc with rfl | hc
  · exact h
  · exact ht c hc

theorem printable_nil : ∀ c ∈ ([] : Str), Printable c := by simp

theorem printable_esc (c : Char) : ∀ d ∈ escChar c, Printable d := by
  unfold escChar
  split_ifs with h1 h2 h3 h4 h5 h6 h7 h8 h9
  · decide
  · decide
  · intro d hd
    simp only [List.mem_cons, List.not_mem_nil, or_false] at hd
    exact hd ▸ Or.inr h3
  · decide
  · decide
  · decide
  · decide
  · decide
  · exact printable_cons (by decide) (printable_cons (by decide) (printable_hex _))
  · exact printable_lit (printable_cons (by decide) (printable_cons (by decide) (printable_hex _)))
      (printable_cons (by decide) (printable_cons (by decide) (printable_hex _)))

theorem printable_quote (s : Str) : ∀ c ∈ quote s, Printable c := by
  refine printable_cons (by decide) (printable_lit ?_ (printable_cons (by decide) printable_nil))
  intro c hc
  obtain ⟨d, _, h⟩ := List.mem_flatMap.1 hc
  exact printable_esc d c h

theorem printable_intShape {ip : Str} (h : IntShape ip) : ∀ c ∈ ip, Printable c := by
  rcases h with rfl | ⟨d, ds, rfl, _, hd⟩
  · decide
  · exact fun c hc => printable_digit (hd c hc)

theorem printable_sign {sg : Str} (h : sg = [] ∨ sg = ['-']) : ∀ c ∈ sg, Printable c := by
  rcases h with rfl | rfl <;> decide

theorem printable_int (i : Int) : ∀ c ∈ strInt i, Printable c := by
  obtain ⟨sg, ip, e, hs, hi⟩ := strInt_shape i
  rw [e]
  exact printable_lit (printable_sign hs) (printable_intShape hi)

theorem printable_flt (jf : JsonFloat) (q : ℚ) : ∀ c ∈ jf.fmt q, Printable c := by
  obtain ⟨sg, ip, fr, ex, e, hs, hi, hf, he, _⟩ := jf.shape q
  rw [e]
  refine printable_lit (printable_sign hs) (printable_lit (printable_intShape hi) (printable_lit ?_ ?_))
  · rcases hf with rfl | ⟨ds, rfl, _, hd⟩
    · exact printable_nil
    · exact printable_cons (by decide) (fun c hc => printable_digit (hd c hc))
  · rcases he with rfl | ⟨e, sg', ds, rfl, h1, h2, _, hd⟩
    · exact printable_nil
    · refine printable_cons (by rcases h1 with rfl | rfl <;> decide) (printable_lit ?_ (fun c hc => printable_digit (hd c hc)))
      rcases h2 with rfl | rfl | rfl <;> decide

theorem printable_brk (ind : Option Nat) (lvl : Nat) : ∀ c ∈ brk ind lvl, Printable c := by
  unfold brk
  cases ind with
  | none => exact printable_nil
  | some k => exact printable_cons (by decide) (fun c hc => by rw [(List.mem_replicate.1 hc).2]; decide)

theorem printable_sep (ind : Option Nat) (lvl : Nat) : ∀ c ∈ sep ind lvl, Printable c := by
  unfold sep
  cases ind with
  | none => exact printable_cons (by decide) printable_nil
  | some k => exact printable_cons (by decide) (fun c hc => by rw [(List.mem_replicate.1 hc).2]; decide)

mutual
theorem printable_dumps (jf : JsonFloat) (ind : Option Nat) (v : JVal) (lvl : Nat) : ∀ c ∈ dumps jf ind lvl v, Printable c := by
  match hv : v with
  | .null => rw [dumps]; decide
  | .bool true => rw [dumps]; decide
  | .bool false => rw [dumps]; decide
  | .int i => rw [dumps]; exact printable_int i
  | .flt q => rw [dumps]; exact printable_flt jf q
  | .str s => rw [dumps]; exact printable_quote s
  | .arr [] => rw [dumps]; decide
  | .arr (x :: xs) =>
      rw [dumps]
      exact printable_cons (by decide) (printable_lit (printable_brk _ _) (printable_lit (printable_dumps jf ind x _)
        (printable_lit (printable_items jf ind xs _) (printable_lit (printable_brk _ _) (by decide)))))
  | .obj [] => rw [dumps]; decide
  | .obj ((k, x) :: kvs) =>
      rw [dumps]
      exact printable_cons (by decide) (printable_lit (printable_brk _ _) (printable_lit (printable_quote _) (printable_cons (by decide)
        (printable_cons (by decide) (printable_lit (printable_dumps jf ind x _)
        (printable_lit (printable_pairs jf ind kvs _) (printable_lit (printable_brk _ _) (by decide))))))))
  termination_by sizeOf v
  decreasing_by all_goals (subst hv; simp; omega)
theorem printable_items (jf : JsonFloat) (ind : Option Nat) (xs : List JVal) (lvl : Nat) : ∀ c ∈ dumpsItems jf ind lvl xs, Printable c := by
  match hv : xs with
  | [] => rw [dumpsItems]; exact printable_nil
  | y :: ys =>
      rw [dumpsItems]
      exact printable_cons (by decide) (printable_lit (printable_sep _ _) (printable_lit (printable_dumps jf ind y _) (printable_items jf ind ys _)))
  termination_by sizeOf xs
  decreasing_by all_goals (subst hv; simp; try omega)
theorem printable_pairs (jf : JsonFloat) (ind : Option Nat) (kvs : List (PyKey × JVal)) (lvl : Nat) :
    ∀ c ∈ dumpsPairs jf ind lvl kvs, Printable c := by
  match hv : kvs with
  | [] => rw [dumpsPairs]; exact printable_nil
  | (k, y) :: ys =>
      rw [dumpsPairs]
      exact printable_cons (by decide) (printable_lit (printable_sep _ _) (printable_lit (printable_quote _) (printable_cons (by decide)
        (printable_cons (by decide) (printable_lit (printable_dumps jf ind y _) (printable_pairs jf ind ys _))))))
  termination_by sizeOf kvs
  decreasing_by all_goals (subst hv; simp; try omega)
end

theorem not_bom {s : Str} (h : ∀ c ∈ s, Printable c) : s.head? ≠ some (Char.ofNat 0xfeff) := by
  intro e
  exact absurd (h _ (List.mem_of_mem_head? e)) (by decide)

theorem loads_dumps (jf : JsonFloat) (ind : Option Nat) (v : JVal) : loads jf (dumps jf ind 0 v) = .ok v.json := by
  obtain ⟨c, r, e, h1, h2, h3⟩ := dumps_head jf ind 0 v
  have hb : (dumps jf ind 0 v).head? ≠ some (Char.ofNat 0xfeff) := not_bom (printable_dumps jf ind v 0)
  have hs : skipWs (dumps jf ind 0 v) = dumps jf ind 0 v := by rw [e]; simp [skipWs, h1]
  have := value_dumps jf ind v 0 ((dumps jf ind 0 v).length + 1) [] (by intro c hc; simp at hc) (by omega)
  rw [List.append_nil] at this
  unfold loads
  rw [if_neg hb, hs, this]
  rfl

end Json
end PyBBN
