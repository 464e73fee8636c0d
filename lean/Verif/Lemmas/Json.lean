import Verif.Model.Json
import Verif.Spec.Json
/-
What is printed is read back.
-/
namespace Verif.Json

mutual
/-- No numbers but natural ones. -/
def whole : Data → Bool
  | .real _ => false
  | .arr l => wholeItems l
  | .obj fs => wholeFields fs
  | _ => true

/-- `whole` for elements. -/
def wholeItems : List Data → Bool
  | [] => true
  | d :: l => whole d && wholeItems l

/-- `whole` for members. -/
def wholeFields : List (String × Data) → Bool
  | [] => true
  | (_, d) :: l => whole d && wholeFields l
end

mutual
/-- How deep arrays and objects are nested. -/
def height : Data → Nat
  | .arr l => heightItems l + 1
  | .obj fs => heightFields fs + 1
  | _ => 0

/-- `height` for elements. -/
def heightItems : List Data → Nat
  | [] => 0
  | d :: l => max (height d) (heightItems l)

/-- `height` for members. -/
def heightFields : List (String × Data) → Nat
  | [] => 0
  | (_, d) :: l => max (height d) (heightFields l)
end

/-! ### Strings -/

theorem hexValue_hexDigit : ∀ n, n < 16 → hexValue (hexDigit n) = some n := by decide

theorem escapeChar_control : ∀ n, n < 32 → ∀ rest, readStr [] (escapeChar (Char.ofNat n) ++ rest) =
    (readStr [] rest).map fun r => (Char.ofNat n :: r.1, r.2) := by
  intro n hn rest
  by_cases h8 : n = 8
  · subst h8; rfl
  by_cases h9 : n = 9
  · subst h9; rfl
  by_cases h10 : n = 10
  · subst h10; rfl
  by_cases h12 : n = 12
  · subst h12; rfl
  by_cases h13 : n = 13
  · subst h13; rfl
  have he : escapeChar (Char.ofNat n) = ['\\', 'u', '0', '0', hexDigit (n / 16), hexDigit (n % 16)] := by
    have key : ∀ n, n < 32 → n = 8 ∨ n = 9 ∨ n = 10 ∨ n = 12 ∨ n = 13 ∨
      escapeChar (Char.ofNat n) = ['\\', 'u', '0', '0', hexDigit (n / 16), hexDigit (n % 16)] := by decide
    rcases key n hn with h | h | h | h | h | h
    iterate 5 contradiction
    exact h
  rw [he]
  have hx : hex4 '0' '0' (hexDigit (n / 16)) (hexDigit (n % 16)) = some n := by
    unfold hex4
    rw [hexValue_hexDigit _ (by omega), hexValue_hexDigit _ (by omega)]
    have : hexValue '0' = some 0 := rfl
    rw [this]
    simp only [Option.some.injEq]
    omega
  show readStr [] ('\\' :: 'u' :: '0' :: '0' :: hexDigit (n / 16) :: hexDigit (n % 16) :: rest) = _
  have he2 : escape ['\\', 'u', '0', '0', hexDigit (n / 16), hexDigit (n % 16)] = .char (Char.ofNat n) := by
    rw [escape, hx]
    show (if _ then _ else _) = _
    rw [if_neg (by omega), if_neg (by omega)]
  show (match escape ['\\', 'u', '0', '0', hexDigit (n / 16), hexDigit (n % 16)] with
    | .more => _ | .bad => none | .char d => _) = _
  rw [he2]

theorem readStr_escapeChar (c : Char) (rest : List Char) : readStr [] (escapeChar c ++ rest) =
    (readStr [] rest).map fun r => (c :: r.1, r.2) := by
  by_cases hc : c.toNat < 32
  · have := escapeChar_control c.toNat hc rest
    rwa [Char.ofNat_toNat] at this
  · by_cases h1 : c = '"'
    · subst h1; rfl
    by_cases h2 : c = '\\'
    · subst h2; rfl
    have ne : ∀ d : Char, d.toNat < 32 → c ≠ d := fun d hd e => hc (e ▸ hd)
    have : escapeChar c = [c] := by
      unfold escapeChar
      rw [if_neg h1, if_neg h2, if_neg (ne _ (by decide)), if_neg (ne _ (by decide)),
        if_neg (ne _ (by decide)), if_neg (ne _ (by decide)), if_neg (ne _ (by decide)), if_neg hc]
    rw [this]
    show readStr [] (c :: rest) = _
    rw [readStr, if_neg (by simp), if_neg h1, if_neg h2, if_neg hc]

theorem readStr_escaped (l rest : List Char) : readStr [] (escaped l ++ '"' :: rest) = some (l, rest) := by
  induction l with
  | nil => rfl
  | cons c l ih =>
    rw [escaped, List.append_assoc, readStr_escapeChar, ih]
    rfl

/-! ### Spellings -/

theorem hexDigits_value {c : Char} {n : Nat} (h : (c, n) ∈ hexDigits) : hexValue c = some n ∧ n < 16 := by
  have key : ∀ e ∈ hexDigits, hexValue e.1 = some e.2 ∧ e.2 < 16 := by decide
  exact key _ h

theorem Hex4.value {ds : List Char} {n : Nat} (h : Hex4 ds n) :
    ∃ a b c d, ds = [a, b, c, d] ∧ hex4 a b c d = some n ∧ n < 0x10000 := by
  obtain ⟨a, b, c, d, i, j, k, l, rfl, h1, h2, h3, h4, rfl⟩ := h
  refine ⟨a, b, c, d, rfl, ?_, ?_⟩
  · unfold hex4
    rw [(hexDigits_value h1).1, (hexDigits_value h2).1, (hexDigits_value h3).1, (hexDigits_value h4).1]
    simp only [Option.some.injEq]
    omega
  · have := (hexDigits_value h1).2
    have := (hexDigits_value h2).2
    have := (hexDigits_value h3).2
    have := (hexDigits_value h4).2
    omega

theorem readStr_spelled {c : Char} {w : List Char} (h : Spelled c w) (rest : List Char) :
    readStr [] (w ++ rest) = (readStr [] rest).map fun r => (c :: r.1, r.2) := by
  cases h with
  | plain h1 h2 h3 =>
    show readStr [] (c :: rest) = _
    rw [readStr, if_neg (by simp), if_neg h2, if_neg h3, if_neg (by omega)]
  | @short e h =>
    have key : ∀ x ∈ shortEscapes, escape ['\\', x.2] = .char x.1 := by
      intro x hx
      simp only [shortEscapes, List.mem_cons, List.not_mem_nil, or_false] at hx
      rcases hx with rfl | rfl | rfl | rfl | rfl | rfl | rfl | rfl <;> rfl
    show (match escape ['\\', e] with
      | .more => _ | .bad => none | .char d => _) = _
    rw [key _ h]
    rfl
  | code h =>
    obtain ⟨a, b, x, d, rfl, h1, h2⟩ := h.value
    have hv : c.toNat < 0xD800 ∨ (0xDFFF < c.toNat ∧ c.toNat < 0x110000) := c.valid
    have he : escape ['\\', 'u', a, b, x, d] = .char c := by
      rw [escape, h1]
      show (if _ then _ else _) = _
      rw [if_neg (by omega), if_neg (by omega), Char.ofNat_toNat]
    show (match escape ['\\', 'u', a, b, x, d] with
      | .more => _ | .bad => none | .char d => _) = _
    rw [he]
    rfl
  | @pair ds es hi lo h1 h2 h3 h4 h5 =>
    obtain ⟨a, b, x, d, rfl, g1, -⟩ := h1.value
    obtain ⟨e, f, g, h, rfl, g2, -⟩ := h2.value
    have he : escape ['\\', 'u', a, b, x, d] = .more := by
      rw [escape, g1]
      show (if _ then _ else _) = _
      rw [if_neg (by omega), if_pos (by omega)]
    have he2 : escape ['\\', 'u', a, b, x, d, '\\', 'u', e, f, g, h] = .char c := by
      rw [escape, g1, g2]
      show (if _ then _ else _) = _
      rw [if_pos (by omega)]
      have : (0xD800 + hi - 0xD800) * 1024 + (0xDC00 + lo - 0xDC00) + 0x10000 = c.toNat := by omega
      rw [this, Char.ofNat_toNat]
    show (match escape ['\\', 'u', a, b, x, d] with
      | .more => readStr ['\\', 'u', a, b, x, d] ('\\' :: 'u' :: e :: f :: g :: h :: rest) | .bad => none | .char d => _) = _
    rw [he]
    show (match escape ['\\', 'u', a, b, x, d, '\\', 'u', e, f, g, h] with
      | .more => _ | .bad => none | .char d => _) = _
    rw [he2]

theorem readStr_spelledAll {l w : List Char} (h : SpelledAll l w) (rest : List Char) :
    readStr [] (w ++ '"' :: rest) = some (l, rest) := by
  induction h with
  | nil => rfl
  | cons h _ ih => rw [List.append_assoc, readStr_spelled h, ih]; rfl

theorem parse_spelled {s : String} {w : List Char} (h : SpelledAll s.toList w) :
    parse (String.ofList ('"' :: w ++ ['"'])) = some (.str s) := by
  unfold parse
  rw [String.toList_ofList]
  have : value ('"' :: w ++ ['"']).length 128 ('"' :: w ++ ['"']) = some (.str s, []) := by
    show (readStr [] (w ++ '"' :: [])).map (fun r => (Data.str (String.ofList r.1), r.2)) = _
    rw [readStr_spelledAll h, Option.map_some, String.ofList_toList]
  rw [this]
  rfl

/-! ### Numbers -/

/-- The text does not go on with the number before it. -/
def Stops : List Char → Prop
  | [] => True
  | c :: _ => isDigit c = false ∧ c ≠ '.' ∧ c ≠ 'e' ∧ c ≠ 'E'

theorem digits_append (ds rest : List Char) (h : ∀ c ∈ ds, isDigit c = true) (hr : Stops rest) :
    digits (ds ++ rest) = (ds, rest) := by
  induction ds with
  | nil =>
    cases rest with
    | nil => rfl
    | cons c l =>
      show digits (c :: l) = _
      rw [digits, if_neg (by simp [hr.1])]
  | cons c ds ih =>
    show digits (c :: (ds ++ rest)) = _
    rw [digits, if_pos (h c (by simp)), ih fun c hc => h c (by simp [hc])]

/-- Decimal notation has no leading zeros. -/
theorem toDigits_zero_head (n : Nat) {ds : List Char} (h : Nat.toDigits 10 n = '0' :: ds) : ds = [] := by
  induction n using Nat.strongRecOn generalizing ds with
  | ind n ih =>
    by_cases hn : n < 10
    · rw [Nat.toDigits_of_lt_base hn] at h
      simp at h; exact h.2
    · rw [Nat.toDigits_of_base_le (by omega) (by omega)] at h
      cases e : Nat.toDigits 10 (n / 10) with
      | nil => exact absurd e Nat.toDigits_ne_nil
      | cons d ds' =>
        rw [e] at h
        simp only [List.cons_append, List.cons.injEq] at h
        have h0 := ih (n / 10) (by omega) (ds := ds') (by rw [e, h.1])
        subst h0
        have : n / 10 = 0 := by
          have e' : Nat.toDigits 10 (n / 10) = ['0'] := by rw [e, h.1]
          have := congrArg (fun l => Nat.ofDigitChars 10 l 0) e'
          simp only [Nat.ofDigitChars_ten_toDigits] at this
          exact this
        omega

theorem number_toDigits (n : Nat) (rest : List Char) (hr : Stops rest) :
    number (Nat.toDigits 10 n ++ rest) = some (.num n, rest) := by
  have hd : ∀ c ∈ Nat.toDigits 10 n, isDigit c = true := fun c hc =>
    Nat.isDigit_of_mem_toDigits (by decide) (by decide) hc
  unfold number
  rw [digits_append _ _ hd hr]
  cases e : Nat.toDigits 10 n with
  | nil => exact absurd e Nat.toDigits_ne_nil
  | cons d ds =>
    have h0 : ¬ (d = '0' ∧ ds ≠ []) := by
      rintro ⟨rfl, h⟩
      exact h (toDigits_zero_head n e)
    have hf : fraction rest = some ([], rest) := by
      cases rest with
      | nil => rfl
      | cons c l => rw [fraction, if_neg hr.2.1]
    have hx : exponent rest = some ([], rest) := by
      cases rest with
      | nil => rfl
      | cons c l => rw [exponent.eq_def]; simp only; rw [if_neg (by simp [hr.2.2.1, hr.2.2.2])]
    simp only [if_neg h0, hf, hx, and_self, if_true]
    rw [← e, Nat.ofDigitChars_ten_toDigits]

/-! ### Values -/

theorem digit_plain (c : Char) (h : isDigit c = true) : isSpace c = false ∧ c ≠ 'n' ∧ c ≠ 't' ∧ c ≠ 'f' ∧ c ≠ '-' ∧
    c ≠ ']' ∧ c ≠ '}' := by
  have ne : ∀ d : Char, isDigit d = false → c ≠ d := fun d hd e => by rw [e, hd] at h; cases h
  have sp : isSpace c = false := by
    unfold isSpace
    simp [ne ' ' (by decide), ne '\n' (by decide), ne '\t' (by decide), ne '\r' (by decide)]
  exact ⟨sp, ne _ (by decide), ne _ (by decide), ne _ (by decide), ne _ (by decide), ne _ (by decide), ne _ (by decide)⟩

/-- How a printed value starts. -/
theorem print_head (d : Data) (h : whole d = true) :
    ∃ c l, print d = c :: l ∧ isSpace c = false ∧ c ≠ ']' := by
  cases d with
  | null => exact ⟨_, _, by rw [print], by decide, by decide⟩
  | bool b => cases b <;> exact ⟨_, _, by rw [print], by decide, by decide⟩
  | num n =>
    rw [print]
    cases e : Nat.toDigits 10 n with
    | nil => exact absurd e Nat.toDigits_ne_nil
    | cons c ds =>
      have := digit_plain c (Nat.isDigit_of_mem_toDigits (b := 10) (n := n) (by decide) (by decide) (by rw [e]; simp))
      exact ⟨c, ds, rfl, this.1, this.2.2.2.2.2.1⟩
  | real t => rw [whole] at h; cases h
  | str s => exact ⟨_, _, by rw [print, quoted]; rfl, by decide, by decide⟩
  | arr l => exact ⟨_, _, by rw [print]; rfl, by decide, by decide⟩
  | obj l => exact ⟨_, _, by rw [print]; rfl, by decide, by decide⟩

theorem skip_cons {c : Char} (l : List Char) (h : isSpace c = false) : skip (c :: l) = c :: l := by
  rw [skip, if_neg (by simp [h])]

theorem printItems_cons (d e : Data) (l : List Data) :
    printItems (d :: e :: l) = print d ++ ',' :: printItems (e :: l) := by
  simp only [printItems, printMoreItems, List.cons_append]

theorem printFields_cons (k : String) (d : Data) (e : String × Data) (l : List (String × Data)) :
    printFields ((k, d) :: e :: l) = quoted k ++ ':' :: print d ++ ',' :: printFields (e :: l) := by
  obtain ⟨k', d'⟩ := e
  simp only [printFields, printMoreFields, List.append_assoc, List.cons_append]

theorem stops_comma (l : List Char) : Stops (',' :: l) := ⟨by decide, by decide, by decide, by decide⟩
theorem stops_bracket (l : List Char) : Stops (']' :: l) := ⟨by decide, by decide, by decide, by decide⟩
theorem stops_brace (l : List Char) : Stops ('}' :: l) := ⟨by decide, by decide, by decide, by decide⟩

mutual
theorem value_print (d : Data) : ∀ (fuel depth : Nat) (rest : List Char), whole d = true → height d < depth →
    (print d).length ≤ fuel → Stops rest → value fuel depth (print d ++ rest) = some (d, rest) := by
  intro fuel depth rest hw hh hf hr
  obtain ⟨c0, l0, hp, hs, -⟩ := print_head d hw
  cases fuel with
  | zero => rw [hp] at hf; simp at hf
  | succ fuel =>
    cases d with
    | null => rw [print]; rfl
    | bool b => cases b <;> (rw [print]; rfl)
    | num n =>
      rw [print] at hp
      rw [print]
      have hd := Nat.isDigit_of_mem_toDigits (b := 10) (n := n) (c := c0) (by decide) (by decide) (by rw [hp]; simp)
      obtain ⟨h1, h2, h3, h4, h5, -, -⟩ := digit_plain c0 hd
      have hn := number_toDigits n rest hr
      rw [hp, List.cons_append] at hn
      rw [hp, List.cons_append, value, skip_cons _ h1]
      simp only [if_neg h2, if_neg h3, if_neg h4, if_neg h5]
      rw [if_pos (show isDigit c0 = true from hd), hn]
    | real t => rw [whole] at hw; cases hw
    | str s =>
      rw [print, quoted]
      show value (fuel + 1) depth ('"' :: ((escaped s.toList ++ ['"']) ++ rest)) = _
      rw [value, skip_cons _ (by decide), List.append_assoc]
      show (if _ then _ else _) = _
      rw [if_neg (by decide), if_neg (by decide), if_neg (by decide), if_neg (by decide), if_neg (by decide),
        if_pos rfl]
      show Option.map _ (readStr [] (escaped s.toList ++ '"' :: rest)) = _
      rw [readStr_escaped, Option.map_some, String.ofList_toList]
    | arr l =>
      rw [height] at hh
      rw [whole] at hw
      rw [print] at hf ⊢
      show value (fuel + 1) depth ('[' :: ((printItems l ++ [']']) ++ rest)) = _
      rw [value, skip_cons _ (by decide), List.append_assoc]
      show (if _ then _ else _) = _
      rw [if_neg (by decide), if_neg (by decide), if_neg (by decide), if_neg (by decide), if_neg (by decide),
        if_neg (by decide), if_pos rfl, if_neg (by omega)]
      show (match skip (printItems l ++ ']' :: rest) with | [] => none | d :: l => _) = _
      cases l with
      | nil => rw [printItems]; rfl
      | cons e l =>
        have hw' := hw
        rw [wholeItems, Bool.and_eq_true] at hw'
        obtain ⟨c, t, he, h1, h2⟩ := print_head e hw'.1
        have hi := items_print (e :: l) fuel (depth - 1) rest (by simp) hw (by omega) (by
          simp only [List.length_cons, List.length_append, List.cons_append, List.length_nil] at hf; omega)
        rw [printItems, he, List.cons_append, List.cons_append] at hi ⊢
        rw [skip_cons _ h1]
        show (if _ then _ else _) = _
        rw [if_neg h2, hi]
        rfl
    | obj l =>
      rw [height] at hh
      rw [whole] at hw
      rw [print] at hf ⊢
      show value (fuel + 1) depth ('{' :: ((printFields l ++ ['}']) ++ rest)) = _
      rw [value, skip_cons _ (by decide), List.append_assoc]
      show (if _ then _ else _) = _
      rw [if_neg (by decide), if_neg (by decide), if_neg (by decide), if_neg (by decide), if_neg (by decide),
        if_neg (by decide), if_neg (by decide), if_pos rfl, if_neg (by omega)]
      show (match skip (printFields l ++ '}' :: rest) with | [] => none | d :: l => _) = _
      cases l with
      | nil => rw [printFields]; rfl
      | cons e l =>
        obtain ⟨k, e⟩ := e
        have hi := fields_print ((k, e) :: l) fuel (depth - 1) rest (by simp) hw (by omega) (by
          simp only [List.length_cons, List.length_append, List.cons_append, List.length_nil] at hf; omega)
        rw [printFields, quoted] at hi ⊢
        simp only [List.cons_append] at hi ⊢
        rw [skip_cons _ (by decide)]
        show (if _ then _ else _) = _
        rw [if_neg (by decide), hi]
        rfl

theorem items_print (l : List Data) : ∀ (fuel depth : Nat) (rest : List Char), l ≠ [] → wholeItems l = true →
    heightItems l < depth → (printItems l).length + 1 ≤ fuel →
    items fuel depth (printItems l ++ ']' :: rest) = some (l, rest) := by
  intro fuel depth rest hl hw hh hf
  cases fuel with
  | zero => omega
  | succ fuel =>
    cases l with
    | nil => exact absurd rfl hl
    | cons d l =>
      rw [wholeItems, Bool.and_eq_true] at hw
      rw [heightItems] at hh
      cases l with
      | nil =>
        have e : printItems [d] = print d := by simp [printItems, printMoreItems]
        rw [e] at hf ⊢
        rw [items, value_print d fuel depth _ hw.1 (by omega) (by omega) (stops_bracket _)]
        rfl
      | cons d' l =>
        rw [printItems_cons] at hf ⊢
        simp only [List.length_cons, List.length_append] at hf
        rw [List.append_assoc, List.cons_append, items,
          value_print d fuel depth _ hw.1 (by omega) (by omega) (stops_comma _)]
        show (match skip (',' :: (printItems (d' :: l) ++ ']' :: rest)) with | [] => none | c :: l => _) = _
        rw [skip_cons _ (by decide)]
        show (if _ then _ else _) = _
        rw [if_neg (by decide), if_pos rfl,
          items_print (d' :: l) fuel depth rest (by simp) hw.2 (by omega) (by omega)]
        rfl

theorem fields_print (l : List (String × Data)) : ∀ (fuel depth : Nat) (rest : List Char), l ≠ [] →
    wholeFields l = true → heightFields l < depth → (printFields l).length + 1 ≤ fuel →
    fields fuel depth (printFields l ++ '}' :: rest) = some (l, rest) := by
  intro fuel depth rest hl hw hh hf
  cases fuel with
  | zero => omega
  | succ fuel =>
    cases l with
    | nil => exact absurd rfl hl
    | cons e l =>
      obtain ⟨k, d⟩ := e
      rw [wholeFields, Bool.and_eq_true] at hw
      rw [heightFields] at hh
      cases l with
      | nil =>
        have e : printFields [(k, d)] = quoted k ++ ':' :: print d := by simp [printFields, printMoreFields]
        rw [e] at hf ⊢
        simp only [List.length_cons, List.length_append] at hf
        rw [quoted, List.append_assoc, List.cons_append, List.cons_append, fields, skip_cons _ (by decide)]
        show (if _ then _ else _) = _
        rw [if_pos rfl, List.append_assoc]
        show (match readStr [] (escaped k.toList ++ '"' :: (':' :: (print d ++ '}' :: rest))) with
          | none => none | some (k, l) => _) = _
        rw [readStr_escaped]
        show (match skip (':' :: (print d ++ '}' :: rest)) with | [] => none | c :: l => _) = _
        rw [skip_cons _ (by decide)]
        show (if _ then _ else _) = _
        rw [if_pos rfl, value_print d fuel depth _ hw.1 (by omega) (by omega) (stops_brace _)]
        show (match skip ('}' :: rest) with | [] => none | c :: l => _) = _
        rw [skip_cons _ (by decide), String.ofList_toList]
        rfl
      | cons e' l =>
        rw [printFields_cons] at hf ⊢
        simp only [List.length_cons, List.length_append] at hf
        rw [List.append_assoc, List.append_assoc, quoted, List.cons_append, List.cons_append, fields,
          skip_cons _ (by decide)]
        show (if _ then _ else _) = _
        rw [if_pos rfl, List.append_assoc]
        show (match readStr [] (escaped k.toList ++ '"' :: (':' :: (print d ++ ',' :: (printFields (e' :: l) ++ '}' :: rest)))) with
          | none => none | some (k, l) => _) = _
        rw [readStr_escaped]
        show (match skip (':' :: (print d ++ ',' :: (printFields (e' :: l) ++ '}' :: rest))) with
          | [] => none | c :: l => _) = _
        rw [skip_cons _ (by decide)]
        show (if _ then _ else _) = _
        rw [if_pos rfl, value_print d fuel depth _ hw.1 (by omega) (by omega) (stops_comma _)]
        show (match skip (',' :: (printFields (e' :: l) ++ '}' :: rest)) with | [] => none | c :: l => _) = _
        rw [skip_cons _ (by decide)]
        show (if _ then _ else _) = _
        rw [if_neg (by decide), if_pos rfl,
          fields_print (e' :: l) fuel depth rest (by simp) hw.2 (by omega) (by omega), String.ofList_toList]
        rfl
end

/-- What is printed is read back. -/
theorem parse_text (d : Data) (hw : whole d = true) (hh : height d < 128) : parse (text d) = some d := by
  unfold parse text
  have := value_print d (print d).length 128 [] hw hh (Nat.le_refl _) trivial
  rw [List.append_nil] at this
  rw [String.toList_ofList, this]
  rfl

end Verif.Json
