import Verif.Spec.Grammar
import Verif.Lemmas.Json
import Mathlib.Data.List.Induction
/-
The reader accepts the texts of the grammar, with the value they stand for, and no others.
-/
namespace Verif.Json

/-! ### White space -/

theorem isSpace_iff (c : Char) : isSpace c = true ↔ c ∈ [' ', '\t', '\n', '\r'] := by
  unfold isSpace
  simp only [Bool.or_eq_true, decide_eq_true_eq, List.mem_cons, List.not_mem_nil, or_false]
  constructor
  · rintro (((h | h) | h) | h) <;> simp [h]
  · rintro (h | h | h | h) <;> simp [h]

theorem skip_split (l : List Char) : ∃ a, Blank a ∧ l = a ++ skip l := by
  induction l with
  | nil => exact ⟨[], fun _ h => by simp at h, rfl⟩
  | cons c l ih =>
    rw [skip]
    by_cases h : isSpace c = true
    · rw [if_pos h]
      obtain ⟨a, h1, h2⟩ := ih
      refine ⟨c :: a, fun x hx => ?_, by rw [List.cons_append, ← h2]⟩
      rcases List.mem_cons.1 hx with rfl | hx
      · exact (isSpace_iff _).1 h
      · exact h1 x hx
    · rw [if_neg h]
      exact ⟨[], fun _ h => by simp at h, rfl⟩

theorem skip_append {a : List Char} (h : Blank a) (l : List Char) : skip (a ++ l) = skip l := by
  induction a with
  | nil => rfl
  | cons c a ih =>
    rw [List.cons_append, skip, if_pos ((isSpace_iff c).2 (h c (by simp))), ih fun x hx => h x (by simp [hx])]

theorem skip_nil_iff (l : List Char) : skip l = [] ↔ Blank l := by
  constructor
  · intro h
    obtain ⟨a, h1, h2⟩ := skip_split l
    rw [h, List.append_nil] at h2
    rw [h2]; exact h1
  · intro h
    have := skip_append h []
    rwa [List.append_nil] at this

/-- Skipping stops at a character that is no white space. -/
theorem skip_stop {a : List Char} (h : Blank a) {c : Char} (hc : isSpace c = false) (l : List Char) :
    skip (a ++ c :: l) = c :: l := by rw [skip_append h, skip_cons _ hc]

/-! ### Keywords -/

theorem keyword_some {d e : Data} {ks l r : List Char} (h : keyword d ks l = some (e, r)) : e = d ∧ l = ks ++ r := by
  induction ks generalizing l with
  | nil => rw [keyword] at h; cases h; exact ⟨rfl, rfl⟩
  | cons k ks ih =>
    cases l with
    | nil => rw [keyword] at h; cases h
    | cons c l =>
      rw [keyword] at h
      by_cases hc : c = k
      · rw [if_pos hc] at h
        obtain ⟨h1, h2⟩ := ih h
        exact ⟨h1, by rw [hc, h2, List.cons_append]⟩
      · rw [if_neg hc] at h; cases h

/-! ### Strings -/

theorem hexValue_some {c : Char} {n : Nat} (h : hexValue c = some n) : (c, n) ∈ hexDigits := by
  have hc : c = Char.ofNat c.toNat := (Char.ofNat_toNat c).symm
  have key : ∀ m, m < 128 → (hexValue (Char.ofNat m)).all (fun n => decide ((Char.ofNat m, n) ∈ hexDigits)) = true := by
    decide +kernel
  have hm : c.toNat < 128 := by
    unfold hexValue at h
    have le : ∀ a b : Char, a ≤ b → a.toNat ≤ b.toNat := fun a b h => h
    split at h
    · rename_i g
      simp only [Bool.and_eq_true, decide_eq_true_eq] at g
      have := le _ _ g.2
      have h9 : '9'.toNat = 57 := rfl
      omega
    · split at h
      · rename_i g
        simp only [Bool.and_eq_true, decide_eq_true_eq] at g
        have := le _ _ g.2
        have h9 : 'f'.toNat = 102 := rfl
        omega
      · split at h
        · rename_i g
          simp only [Bool.and_eq_true, decide_eq_true_eq] at g
          have := le _ _ g.2
          have h9 : 'F'.toNat = 70 := rfl
          omega
        · cases h
  have hk := key _ hm
  rw [← hc, h, Option.all_some, decide_eq_true_eq] at hk
  exact hk

theorem hex4_some {a b c d : Char} {n : Nat} (h : hex4 a b c d = some n) : Hex4 [a, b, c, d] n := by
  unfold hex4 at h
  cases ha : hexValue a with
  | none => rw [ha] at h; cases h
  | some i =>
    cases hb : hexValue b with
    | none => rw [ha, hb] at h; cases h
    | some j =>
      cases hc : hexValue c with
      | none => rw [ha, hb, hc] at h; cases h
      | some k =>
        cases hd : hexValue d with
        | none => rw [ha, hb, hc, hd] at h; cases h
        | some l =>
          rw [ha, hb, hc, hd] at h
          injection h with h
          refine ⟨a, b, c, d, i, j, k, l, rfl, hexValue_some ha, hexValue_some hb, hexValue_some hc, hexValue_some hd, ?_⟩
          omega

theorem unescape_some {e c : Char} (h : unescape e = some c) : (c, e) ∈ shortEscapes := by
  unfold unescape at h
  split at h
  · rename_i g; cases h; subst g; decide
  split at h
  · rename_i g; cases h; subst g; decide
  split at h
  · rename_i g; cases h; subst g; decide
  split at h
  · rename_i g; cases h; subst g; decide
  split at h
  · rename_i g; cases h; subst g; decide
  split at h
  · rename_i g; cases h; subst g; decide
  split at h
  · rename_i g; cases h; subst g; decide
  split at h
  · rename_i g; cases h; subst g; decide
  cases h

/-- One more character of an escape sequence that has begun. -/
theorem readStr_pending {p : List Char} (hp : p ≠ []) (c : Char) (l : List Char) : readStr p (c :: l) =
    match escape (p ++ [c]) with
    | .more => readStr (p ++ [c]) l
    | .bad => none
    | .char d => (readStr [] l).map fun r => (d :: r.1, r.2) := by
  rw [readStr, if_pos hp]
  cases escape (p ++ [c]) <;> rfl

/-- What an escape sequence is read as. -/
def Step (text : List Char) (res : List Char × List Char) : Prop :=
  ∃ c w l r, Spelled c w ∧ text = w ++ l ∧ res.1 = c :: r ∧ readStr [] l = some (r, res.2)

theorem toNat_ofNat {n : Nat} (h : n < 0xD800 ∨ (0xDFFF < n ∧ n < 0x110000)) : (Char.ofNat n).toNat = n := by
  have hv : n.isValidChar := h
  unfold Char.ofNat
  rw [dif_pos hv]
  rfl

theorem readStr_low {a b c d : Char} {n : Nat} (hn : hex4 a b c d = some n) (h1 : 0xD800 ≤ n) (h2 : n ≤ 0xDBFF)
    {text : List Char} {res : List Char × List Char} (h : readStr ['\\', 'u', a, b, c, d] text = some res) :
    Step ('\\' :: 'u' :: a :: b :: c :: d :: text) res := by
  cases text with
  | nil => rw [readStr] at h; cases h
  | cons x l =>
  rw [readStr_pending (by simp)] at h
  change (match (if x = '\\' then Escape.more else .bad) with | .more => _ | .bad => none | .char d => _) = _ at h
  by_cases hx : x = '\\'
  case neg => rw [if_neg hx] at h; cases h
  subst hx
  rw [if_pos rfl] at h
  change readStr ['\\', 'u', a, b, c, d, '\\'] l = some res at h
  cases l with
  | nil => rw [readStr] at h; cases h
  | cons y l =>
  rw [readStr_pending (by simp)] at h
  change (match (if y = 'u' then Escape.more else .bad) with | .more => _ | .bad => none | .char d => _) = _ at h
  by_cases hy : y = 'u'
  case neg => rw [if_neg hy] at h; cases h
  subst hy
  rw [if_pos rfl] at h
  change readStr ['\\', 'u', a, b, c, d, '\\', 'u'] l = some res at h
  cases l with
  | nil => rw [readStr] at h; cases h
  | cons e l =>
  rw [readStr_pending (by simp)] at h
  change readStr ['\\', 'u', a, b, c, d, '\\', 'u', e] l = some res at h
  cases l with
  | nil => rw [readStr] at h; cases h
  | cons f l =>
  rw [readStr_pending (by simp)] at h
  change readStr ['\\', 'u', a, b, c, d, '\\', 'u', e, f] l = some res at h
  cases l with
  | nil => rw [readStr] at h; cases h
  | cons g l =>
  rw [readStr_pending (by simp)] at h
  change readStr ['\\', 'u', a, b, c, d, '\\', 'u', e, f, g] l = some res at h
  cases l with
  | nil => rw [readStr] at h; cases h
  | cons k l =>
  rw [readStr_pending (by simp)] at h
  change (match escape ['\\', 'u', a, b, c, d, '\\', 'u', e, f, g, k] with | .more => _ | .bad => none | .char d => _) = _ at h
  rw [escape, hn] at h
  cases hm : hex4 e f g k with
  | none => rw [hm] at h; cases h
  | some m =>
    rw [hm] at h
    change (match (if 0xDC00 ≤ m ∧ m ≤ 0xDFFF then Escape.char _ else .bad) with
      | .more => _ | .bad => none | .char d => _) = _ at h
    by_cases hg : 0xDC00 ≤ m ∧ m ≤ 0xDFFF
    case neg => rw [if_neg hg] at h; cases h
    rw [if_pos hg] at h
    obtain ⟨⟨r, rest⟩, h3, h4⟩ := Option.map_eq_some_iff.1 h
    subst h4
    refine ⟨_, _, l, r, .pair (ds := [a, b, c, d]) (es := [e, f, g, k]) (hi := n - 0xD800) (lo := m - 0xDC00) ?_ ?_ (by omega) (by omega)
      (toNat_ofNat (by omega) |>.trans (by omega)), rfl, rfl, h3⟩
    · rw [show 0xD800 + (n - 0xD800) = n by omega]; exact hex4_some hn
    · rw [show 0xDC00 + (m - 0xDC00) = m by omega]; exact hex4_some hm

theorem readStr_backslash {text : List Char} {res : List Char × List Char} (h : readStr ['\\'] text = some res) :
    Step ('\\' :: text) res := by
  cases text with
  | nil => rw [readStr] at h; cases h
  | cons e l =>
  rw [readStr_pending (by simp)] at h
  change (match (if e = 'u' then Escape.more else match unescape e with | none => .bad | some c => .char c) with
    | .more => _ | .bad => none | .char d => _) = _ at h
  by_cases he : e = 'u'
  case neg =>
    rw [if_neg he] at h
    cases hu : unescape e with
    | none => rw [hu] at h; cases h
    | some c =>
      rw [hu] at h
      obtain ⟨⟨r, rest⟩, h3, h4⟩ := Option.map_eq_some_iff.1 h
      subst h4
      exact ⟨c, _, l, r, .short (unescape_some hu), rfl, rfl, h3⟩
  subst he
  rw [if_pos rfl] at h
  change readStr ['\\', 'u'] l = some res at h
  cases l with
  | nil => rw [readStr] at h; cases h
  | cons a l =>
  rw [readStr_pending (by simp)] at h
  change readStr ['\\', 'u', a] l = some res at h
  cases l with
  | nil => rw [readStr] at h; cases h
  | cons b l =>
  rw [readStr_pending (by simp)] at h
  change readStr ['\\', 'u', a, b] l = some res at h
  cases l with
  | nil => rw [readStr] at h; cases h
  | cons c l =>
  rw [readStr_pending (by simp)] at h
  change readStr ['\\', 'u', a, b, c] l = some res at h
  cases l with
  | nil => rw [readStr] at h; cases h
  | cons d l =>
  rw [readStr_pending (by simp)] at h
  change (match escape ['\\', 'u', a, b, c, d] with
    | .more => readStr ['\\', 'u', a, b, c, d] l | .bad => none | .char d => _) = _ at h
  rw [escape] at h
  cases hn : hex4 a b c d with
  | none => rw [hn] at h; cases h
  | some n =>
    rw [hn] at h
    change (match (if 0xDC00 ≤ n ∧ n ≤ 0xDFFF then Escape.bad
      else if 0xD800 ≤ n ∧ n ≤ 0xDBFF then .more else .char (Char.ofNat n)) with
      | .more => readStr ['\\', 'u', a, b, c, d] l | .bad => none | .char d => _) = _ at h
    by_cases h1 : 0xDC00 ≤ n ∧ n ≤ 0xDFFF
    · rw [if_pos h1] at h; cases h
    rw [if_neg h1] at h
    by_cases h2 : 0xD800 ≤ n ∧ n ≤ 0xDBFF
    · rw [if_pos h2] at h
      exact readStr_low hn h2.1 h2.2 h
    rw [if_neg h2] at h
    obtain ⟨⟨r, rest⟩, h3, h4⟩ := Option.map_eq_some_iff.1 h
    subst h4
    refine ⟨_, _, l, r, .code (ds := [a, b, c, d]) ?_, rfl, rfl, h3⟩
    have hh := hex4_some hn
    obtain ⟨_, _, _, _, _, _, hlt⟩ := hh.value
    rw [toNat_ofNat (by omega)]
    exact hh

theorem readStr_some {text : List Char} {l rest : List Char} (h : readStr [] text = some (l, rest)) :
    ∃ w, SpelledAll l w ∧ text = w ++ '"' :: rest := by
  generalize hn : text.length = n
  induction n using Nat.strongRecOn generalizing text l with
  | ind n ih =>
  cases text with
  | nil => rw [readStr] at h; cases h
  | cons c t =>
    have hs : Step (c :: t) (l, rest) ∨ (c = '"' ∧ l = [] ∧ rest = t) := by
      rw [readStr, if_neg (by simp)] at h
      by_cases h1 : c = '"'
      · rw [if_pos h1] at h; cases h; exact .inr ⟨h1, rfl, rfl⟩
      rw [if_neg h1] at h
      by_cases h2 : c = '\\'
      · rw [if_pos h2] at h; subst h2; exact .inl (readStr_backslash h)
      rw [if_neg h2] at h
      by_cases h3 : c.toNat < 32
      · rw [if_pos h3] at h; cases h
      rw [if_neg h3] at h
      obtain ⟨⟨r, rest⟩, h4, h5⟩ := Option.map_eq_some_iff.1 h
      cases h5
      exact .inl ⟨c, [c], t, r, .plain (by omega) h1 h2, rfl, rfl, h4⟩
    rcases hs with ⟨d, w, t', r, h1, h2, h3, h4⟩ | ⟨rfl, rfl, rfl⟩
    · have hw : 0 < w.length := by cases h1 <;> simp
      have hlt : t'.length < n := by
        have := congrArg List.length h2
        rw [List.length_append] at this
        omega
      obtain ⟨v, h5, h6⟩ := ih _ hlt h4 rfl
      dsimp only at h3
      exact ⟨w ++ v, h3 ▸ .cons h1 h5, by rw [h2, h6, List.append_assoc]⟩
    · exact ⟨[], .nil, rfl⟩

/-! ### Numbers -/

theorem isDigit_iff (c : Char) : isDigit c = true ↔ c ∈ decimals := by
  constructor
  · intro h
    have key : ∀ m, m < 58 → isDigit (Char.ofNat m) = true → Char.ofNat m ∈ decimals := by decide +kernel
    have hm : c.toNat < 58 := by
      unfold isDigit Char.isDigit at h
      simp only [Bool.and_eq_true, decide_eq_true_eq] at h
      have : c.val.toNat ≤ 57 := h.2
      show c.val.toNat < 58
      omega
    have := key _ hm
    rw [Char.ofNat_toNat] at this
    exact this h
  · intro h
    have key : ∀ c ∈ decimals, isDigit c = true := by decide
    exact key c h

theorem idxOf_digit (c : Char) (h : c ∈ decimals) : decimals.idxOf c = c.toNat - '0'.toNat := by
  have key : ∀ c ∈ decimals, decimals.idxOf c = c.toNat - '0'.toNat := by decide
  exact key c h

theorem foldl_digits (w : List Char) (n : Nat) (h : ∀ c ∈ w, c ∈ decimals) :
    w.foldl (fun n c => 10 * n + decimals.idxOf c) n = Nat.ofDigitChars 10 w n := by
  induction w generalizing n with
  | nil => rfl
  | cons c w ih =>
    rw [List.foldl_cons, ih _ fun x hx => h x (by simp [hx]), idxOf_digit c (h c (by simp))]
    rfl

theorem decimal_eq {w : List Char} (h : ∀ c ∈ w, c ∈ decimals) : decimal w = Nat.ofDigitChars 10 w 0 := foldl_digits w 0 h

theorem digits_split (l : List Char) : l = (digits l).1 ++ (digits l).2 ∧ ∀ c ∈ (digits l).1, c ∈ decimals := by
  induction l with
  | nil => exact ⟨rfl, by simp [digits]⟩
  | cons c l ih =>
    rw [digits]
    by_cases h : isDigit c = true
    · rw [if_pos h]
      refine ⟨by rw [List.cons_append, ← ih.1], fun x hx => ?_⟩
      rcases List.mem_cons.1 hx with rfl | hx
      · exact (isDigit_iff _).1 h
      · exact ih.2 x hx
    · rw [if_neg h]
      exact ⟨rfl, by simp⟩

theorem fraction_some {l fr r : List Char} (h : fraction l = some (fr, r)) : Fraction fr ∧ l = fr ++ r := by
  cases l with
  | nil => rw [fraction] at h; cases h; exact ⟨.absent, rfl⟩
  | cons c l =>
    rw [fraction] at h
    by_cases hc : c = '.'
    · rw [if_pos hc] at h
      obtain ⟨h1, h2⟩ := digits_split l
      cases hd : digits l with
      | mk ds l' =>
        rw [hd] at h h1 h2
        cases ds with
        | nil => cases h
        | cons d ds =>
          cases h
          exact ⟨.present ⟨by simp, h2⟩, by rw [hc, h1]; rfl⟩
    · rw [if_neg hc] at h
      cases h
      exact ⟨.absent, rfl⟩

theorem exponent_some {l ex r : List Char} (h : exponent l = some (ex, r)) : Exponent ex ∧ l = ex ++ r := by
  cases l with
  | nil => rw [exponent] at h; cases h; exact ⟨.absent, rfl⟩
  | cons c l =>
    rw [exponent.eq_def] at h
    dsimp only at h
    by_cases hc : c = 'e' ∨ c = 'E'
    · rw [if_pos hc] at h
      have hc' : c ∈ ['e', 'E'] := by simpa using hc
      cases l with
      | nil => cases h
      | cons s l =>
        dsimp only at h
        by_cases hs : s = '+' ∨ s = '-'
        · simp only [if_pos hs] at h
          obtain ⟨h1, h2⟩ := digits_split l
          cases hd : digits l with
          | mk ds l' =>
            rw [hd] at h h1 h2
            cases ds with
            | nil => cases h
            | cons d ds =>
              cases h
              refine ⟨.present (sign := [s]) hc' ?_ ⟨by simp, h2⟩, ?_⟩
              · rcases hs with rfl | rfl <;> simp
              · rw [h1]; rfl
        · simp only [if_neg hs] at h
          obtain ⟨h1, h2⟩ := digits_split (s :: l)
          cases hd : digits (s :: l) with
          | mk ds l' =>
            rw [hd] at h h1 h2
            cases ds with
            | nil => cases h
            | cons d ds =>
              cases h
              refine ⟨.present (sign := []) hc' (by simp) ⟨by simp, h2⟩, ?_⟩
              rw [h1]; rfl
    · rw [if_neg hc] at h
      cases h
      exact ⟨.absent, rfl⟩

/-- The value of a number without sign. -/
def numeral (w fr ex : List Char) : Data := if fr = [] ∧ ex = [] then .num (decimal w) else .real (w ++ fr ++ ex)

theorem number_some {l r : List Char} {d : Data} (h : number l = some (d, r)) :
    ∃ w fr ex, Whole w ∧ Fraction fr ∧ Exponent ex ∧ l = w ++ fr ++ ex ++ r ∧ d = numeral w fr ex := by
  unfold number at h
  obtain ⟨h1, h2⟩ := digits_split l
  cases hd : digits l with
  | mk ds l' =>
    rw [hd] at h h1 h2
    cases ds with
    | nil => cases h
    | cons c ds =>
      dsimp only at h h1 h2
      by_cases h0 : c = '0' ∧ ds ≠ []
      · rw [if_pos h0] at h; cases h
      rw [if_neg h0] at h
      cases hf : fraction l' with
      | none => rw [hf] at h; cases h
      | some x =>
        obtain ⟨fr, l2⟩ := x
        rw [hf] at h
        dsimp only at h
        cases he : exponent l2 with
        | none => rw [he] at h; cases h
        | some y =>
          obtain ⟨ex, l3⟩ := y
          rw [he] at h
          dsimp only at h
          obtain ⟨g1, g2⟩ := fraction_some hf
          obtain ⟨g3, g4⟩ := exponent_some he
          have hw : Whole (c :: ds) := ⟨⟨by simp, h2⟩, fun hh => by
            have hc : c = '0' := by simpa using hh
            have : ds = [] := by
              by_cases hds : ds = []
              · exact hds
              · exact absurd ⟨hc, hds⟩ h0
            rw [hc, this]⟩
          have hl : l = c :: ds ++ fr ++ ex ++ l3 := by rw [h1, g2, g4]; simp
          by_cases hz : fr = [] ∧ ex = []
          · rw [if_pos hz] at h
            cases h
            refine ⟨_, fr, ex, hw, g1, g3, hl, ?_⟩
            rw [numeral, if_pos hz, decimal_eq h2]
          · rw [if_neg hz] at h
            cases h
            refine ⟨_, fr, ex, hw, g1, g3, hl, ?_⟩
            rw [numeral, if_neg hz]

/-- The text after it does not begin with a digit. -/
def NoDigit : List Char → Prop
  | [] => True
  | c :: _ => isDigit c = false

theorem Stops.noDigit {l : List Char} (h : Stops l) : NoDigit l := by
  cases l with
  | nil => trivial
  | cons c l => exact h.1

theorem digits_stop (ds rest : List Char) (h : ∀ c ∈ ds, c ∈ decimals) (hr : NoDigit rest) : digits (ds ++ rest) = (ds, rest) := by
  induction ds with
  | nil =>
    cases rest with
    | nil => rfl
    | cons c l =>
      have hr' : isDigit c = false := hr
      show digits (c :: l) = _
      rw [digits, if_neg (by simp [hr'])]
  | cons c ds ih =>
    show digits (c :: (ds ++ rest)) = _
    rw [digits, if_pos ((isDigit_iff c).2 (h c (by simp))), ih fun c hc => h c (by simp [hc])]

theorem exponent_stop {ex rest : List Char} (h : Exponent ex) (hr : Stops rest) :
    exponent (ex ++ rest) = some (ex, rest) := by
  cases h with
  | absent =>
    cases rest with
    | nil => rfl
    | cons c l =>
      show exponent (c :: l) = _
      rw [exponent.eq_def]; simp only; rw [if_neg (by simp [hr.2.2.1, hr.2.2.2])]
  | @present e sign w he hs hw =>
    have he' : e = 'e' ∨ e = 'E' := by simpa using he
    obtain ⟨hw1, hw2⟩ := hw
    cases w with
    | nil => exact absurd rfl hw1
    | cons d w =>
    have hd := digits_stop (d :: w) rest hw2 hr.noDigit
    have hs' : sign = [] ∨ sign = ['+'] ∨ sign = ['-'] := by simpa using hs
    have hne : ¬ (d = '+' ∨ d = '-') := by
      have hdd := hw2 d (by simp)
      rintro (rfl | rfl)
      · exact absurd hdd (by decide)
      · exact absurd hdd (by decide)
    rcases hs' with rfl | rfl | rfl
    · show exponent (e :: d :: (w ++ rest)) = _
      rw [exponent.eq_def]
      simp only [if_pos he', if_neg hne]
      rw [List.cons_append] at hd
      rw [hd]
      rfl
    · show exponent (e :: '+' :: (d :: w ++ rest)) = _
      rw [exponent.eq_def]
      simp only [if_pos he', true_or, if_true]
      rw [hd]
      rfl
    · show exponent (e :: '-' :: (d :: w ++ rest)) = _
      rw [exponent.eq_def]
      simp only [if_pos he', or_true, if_true]
      rw [hd]
      rfl

theorem Exponent.noDigit {ex rest : List Char} (h : Exponent ex) (hr : Stops rest) :
    NoDigit (ex ++ rest) ∧ (ex ++ rest).head? ≠ some '.' := by
  cases h with
  | absent =>
    refine ⟨hr.noDigit, ?_⟩
    cases rest with
    | nil => simp
    | cons c l => simpa using hr.2.1
  | @present e sign w he hs hw =>
    have he' : e = 'e' ∨ e = 'E' := by simpa using he
    rcases he' with rfl | rfl
    · exact ⟨(by decide : isDigit 'e' = false), by simp⟩
    · exact ⟨(by decide : isDigit 'E' = false), by simp⟩

theorem fraction_stop {fr ex rest : List Char} (h : Fraction fr) (he : Exponent ex) (hr : Stops rest) :
    fraction (fr ++ (ex ++ rest)) = some (fr, ex ++ rest) := by
  obtain ⟨h1, h2⟩ := he.noDigit hr
  cases h with
  | absent =>
    cases hx : ex ++ rest with
    | nil => rfl
    | cons c l =>
      rw [hx] at h2
      show fraction (c :: l) = _
      rw [fraction, if_neg (by simpa using h2)]
  | @present w hw =>
    show fraction ('.' :: (w ++ (ex ++ rest))) = _
    rw [fraction, if_pos rfl, digits_stop w _ hw.2 h1]
    cases w with
    | nil => exact absurd rfl hw.1
    | cons d w => rfl

theorem Fraction.noDigit {fr ex rest : List Char} (h : Fraction fr) (he : Exponent ex) (hr : Stops rest) :
    NoDigit (fr ++ (ex ++ rest)) := by
  cases h with
  | absent => exact (he.noDigit hr).1
  | present hw => exact (by decide : isDigit '.' = false)

theorem number_stop {w fr ex rest : List Char} (hw : Whole w) (hf : Fraction fr) (he : Exponent ex) (hr : Stops rest) :
    number (w ++ fr ++ ex ++ rest) = some (numeral w fr ex, rest) := by
  obtain ⟨⟨h1, h2⟩, h3⟩ := hw
  unfold number
  rw [List.append_assoc, List.append_assoc, digits_stop w _ h2 (hf.noDigit he hr)]
  cases w with
  | nil => exact absurd rfl h1
  | cons d ds =>
    have h0 : ¬ (d = '0' ∧ ds ≠ []) := by
      rintro ⟨rfl, h⟩
      have := h3 rfl
      simp at this
      exact h this
    simp only [if_neg h0, fraction_stop hf he hr, exponent_stop he hr]
    unfold numeral
    by_cases hz : fr = [] ∧ ex = []
    · rw [if_pos hz, if_pos hz, decimal_eq h2]
    · rw [if_neg hz, if_neg hz]

/-- A number without zeros before it is its own decimal notation. -/
theorem toDigits_decimal {w : List Char} (hw : Whole w) : Nat.toDigits 10 (decimal w) = w := by
  obtain ⟨⟨h1, h2⟩, h3⟩ := hw
  rw [decimal_eq h2]
  induction w using List.reverseRecOn with
  | nil => exact absurd rfl h1
  | append_singleton w d ih =>
    have hd := h2 d (by simp)
    have hd1 : ∀ c ∈ decimals, c.toNat - '0'.toNat < 10 ∧ Nat.digitChar (c.toNat - '0'.toNat) = c := by decide
    obtain ⟨hlt, hch⟩ := hd1 d hd
    rw [Nat.ofDigitChars_append]
    by_cases hn : w = []
    · subst hn
      show Nat.toDigits 10 (10 * 0 + (d.toNat - '0'.toNat)) = _
      rw [Nat.mul_zero, Nat.zero_add, Nat.toDigits_of_lt_base hlt, hch]
      rfl
    · have ih' := ih (fun h0 => by
        have : (w ++ [d]).head? = some '0' := by
          cases w with
          | nil => exact absurd rfl hn
          | cons c w => simpa using h0
        have := h3 this
        cases w with
        | nil => exact absurd rfl hn
        | cons c w => simp at this) hn (fun c hc => h2 c (by simp [hc]))
      show Nat.toDigits 10 (10 * Nat.ofDigitChars 10 w 0 + (d.toNat - '0'.toNat)) = _
      have hpos : Nat.ofDigitChars 10 w 0 ≠ 0 := by
        intro hz
        rw [hz] at ih'
        have : w = ['0'] := ih'.symm
        subst this
        have := h3 rfl
        simp at this
      rw [Nat.toDigits_of_base_le (by omega) (by omega)]
      rw [show (10 * Nat.ofDigitChars 10 w 0 + (d.toNat - '0'.toNat)) / 10 = Nat.ofDigitChars 10 w 0 by omega,
        show (10 * Nat.ofDigitChars 10 w 0 + (d.toNat - '0'.toNat)) % 10 = d.toNat - '0'.toNat by omega, ih', hch]

theorem negative_stop {w fr ex rest : List Char} (hw : Whole w) (hf : Fraction fr) (he : Exponent ex) (hr : Stops rest) :
    negative (w ++ fr ++ ex ++ rest) = some (.real ('-' :: (w ++ fr ++ ex)), rest) := by
  unfold negative
  rw [number_stop hw hf he hr]
  unfold numeral
  by_cases hz : fr = [] ∧ ex = []
  · rw [if_pos hz, hz.1, hz.2]
    simp only [toDigits_decimal hw, List.append_nil]
  · rw [if_neg hz]

theorem negative_some {l r : List Char} {d : Data} (h : negative l = some (d, r)) :
    ∃ w fr ex, Whole w ∧ Fraction fr ∧ Exponent ex ∧ l = w ++ fr ++ ex ++ r ∧ d = .real ('-' :: (w ++ fr ++ ex)) := by
  unfold negative at h
  cases hn : number l with
  | none => rw [hn] at h; cases h
  | some x =>
    obtain ⟨e, r'⟩ := x
    obtain ⟨w, fr, ex, hw, hf, he, hl, rfl⟩ := number_some hn
    rw [hn] at h
    refine ⟨w, fr, ex, hw, hf, he, ?_⟩
    by_cases hz : fr = [] ∧ ex = []
    · rw [numeral, if_pos hz] at h
      cases h
      exact ⟨hl, by rw [toDigits_decimal hw, hz.1, hz.2, List.append_nil, List.append_nil]⟩
    · rw [numeral, if_neg hz] at h
      cases h
      exact ⟨hl, rfl⟩

/-! ### Values -/

theorem Blank.stops {b : List Char} (h : Blank b) {c : Char} {l : List Char} (hc : Stops (c :: l)) : Stops (b ++ c :: l) := by
  cases b with
  | nil => exact hc
  | cons x b =>
    have hx := h x (by simp)
    have key : ∀ x ∈ [' ', '\t', '\n', '\r'], isDigit x = false ∧ x ≠ '.' ∧ x ≠ 'e' ∧ x ≠ 'E' := by decide
    exact key x hx

theorem Blank.stops_end {b : List Char} (h : Blank b) : Stops b := by
  cases b with
  | nil => trivial
  | cons x b =>
    have hx := h x (by simp)
    have key : ∀ x ∈ [' ', '\t', '\n', '\r'], isDigit x = false ∧ x ≠ '.' ∧ x ≠ 'e' ∧ x ≠ 'E' := by decide
    exact key x hx

/-- How a number starts. -/
theorem Whole.head {w : List Char} (h : Whole w) : ∃ c l, w = c :: l ∧ isDigit c = true := by
  obtain ⟨⟨h1, h2⟩, -⟩ := h
  cases w with
  | nil => exact absurd rfl h1
  | cons c l => exact ⟨c, l, rfl, (isDigit_iff c).2 (h2 c (by simp))⟩

/-- How a value starts. -/
theorem Written.head {n : Nat} {d : Data} {w : List Char} (h : Written n d w) :
    ∃ c l, w = c :: l ∧ isSpace c = false ∧ c ≠ ']' := by
  cases h with
  | null => exact ⟨_, _, rfl, by decide, by decide⟩
  | yes => exact ⟨_, _, rfl, by decide, by decide⟩
  | no => exact ⟨_, _, rfl, by decide, by decide⟩
  | whole h =>
    obtain ⟨c, l, rfl, hc⟩ := h.head
    exact ⟨c, l, rfl, (digit_plain c hc).1, (digit_plain c hc).2.2.2.2.2.1⟩
  | real h =>
    obtain ⟨c, l, rfl, hc⟩ := h.head
    exact ⟨c, _, rfl, (digit_plain c hc).1, (digit_plain c hc).2.2.2.2.2.1⟩
  | minus => exact ⟨_, _, rfl, by decide, by decide⟩
  | str => exact ⟨_, _, rfl, by decide, by decide⟩
  | emptyArr => exact ⟨_, _, rfl, by decide, by decide⟩
  | arr => exact ⟨_, _, rfl, by decide, by decide⟩
  | emptyObj => exact ⟨_, _, rfl, by decide, by decide⟩
  | obj => exact ⟨_, _, rfl, by decide, by decide⟩

/-- What the reader makes of a text that starts with a digit. -/
theorem value_digit {fuel depth : Nat} {c : Char} {l : List Char} (h : isDigit c = true) :
    value (fuel + 1) depth (c :: l) = number (c :: l) := by
  obtain ⟨h1, h2, h3, h4, h5, -, -⟩ := digit_plain c h
  rw [value, skip_cons _ h1]
  simp only [if_neg h2, if_neg h3, if_neg h4, if_neg h5]
  rw [if_pos h]

theorem value_skip (fuel depth : Nat) (text : List Char) : value fuel depth (skip text) = value fuel depth text := by
  cases fuel with
  | zero => rfl
  | succ fuel =>
    have : skip (skip text) = skip text := by
      obtain ⟨a, h1, h2⟩ := skip_split text
      have := skip_append h1 (skip text)
      rw [← h2] at this
      exact this.symm
    rw [value, value, this]

theorem value_blank {a : List Char} (h : Blank a) (fuel depth : Nat) (l : List Char) :
    value fuel depth (a ++ l) = value fuel depth l := by
  rw [← value_skip, skip_append h, value_skip]

/-- What is to be shown of a value. -/
def ReadsValue (n : Nat) (d : Data) (w : List Char) : Prop :=
  ∀ (fuel : Nat) (rest : List Char), w.length ≤ fuel → Stops rest → value fuel (n + 1) (w ++ rest) = some (d, rest)

/-- What is to be shown of elements. -/
def ReadsItems (n : Nat) (l : List Data) (w : List Char) : Prop :=
  (∃ c t, skip w = c :: t ∧ c ≠ ']' ∧ ∀ r, skip (w ++ r) = c :: (t ++ r)) ∧
  ∀ (fuel : Nat) (rest : List Char), w.length + 1 ≤ fuel → items fuel (n + 1) (w ++ ']' :: rest) = some (l, rest)

/-- What is to be shown of members. -/
def ReadsFields (n : Nat) (fs : List (String × Data)) (w : List Char) : Prop :=
  (∃ t, ∀ r, skip (w ++ r) = '"' :: (t ++ r)) ∧
  ∀ (fuel : Nat) (rest : List Char), w.length + 1 ≤ fuel → fields fuel (n + 1) (w ++ '}' :: rest) = some (fs, rest)

/-- What is to be shown of a member. -/
def ReadsMember (n : Nat) (k : String) (d : Data) (w : List Char) : Prop :=
  ∃ a s b c v e l, Blank a ∧ SpelledAll l s ∧ Blank b ∧ Blank c ∧ Blank e ∧ k = String.ofList l ∧
    w = a ++ '"' :: (s ++ '"' :: (b ++ ':' :: (c ++ v ++ e))) ∧ ReadsValue n d v

theorem items_skip (fuel depth : Nat) (text : List Char) : items fuel depth (skip text) = items fuel depth text := by
  cases fuel with
  | zero => rfl
  | succ fuel => rw [items, items, value_skip]

theorem fields_skip (fuel depth : Nat) (text : List Char) : fields fuel depth (skip text) = fields fuel depth text := by
  cases fuel with
  | zero => rfl
  | succ fuel =>
    have : skip (skip text) = skip text := by
      obtain ⟨a, h1, h2⟩ := skip_split text
      have := skip_append h1 (skip text)
      rw [← h2] at this
      exact this.symm
    rw [fields, fields, this]

theorem value_arr {fuel n : Nat} {t l r : List Char} {c : Char} {x : List Data} (h1 : skip t = c :: l) (h2 : c ≠ ']')
    (h3 : items fuel (n + 1) (c :: l) = some (x, r)) : value (fuel + 1) (n + 2) ('[' :: t) = some (.arr x, r) := by
  rw [value, skip_cons _ (by decide)]
  show (if _ then _ else _) = _
  rw [if_neg (by decide), if_neg (by decide), if_neg (by decide), if_neg (by decide), if_neg (by decide),
    if_neg (by decide), if_pos rfl, if_neg (by omega)]
  show (match skip t with | [] => none | d :: l => _) = _
  rw [h1]
  show (if _ then _ else _) = _
  rw [if_neg h2]
  show Option.map _ (items fuel (n + 1) (c :: l)) = _
  rw [h3]
  rfl

theorem value_arr_nil {fuel n : Nat} {t r : List Char} (h1 : skip t = ']' :: r) :
    value (fuel + 1) (n + 2) ('[' :: t) = some (.arr [], r) := by
  rw [value, skip_cons _ (by decide)]
  show (if _ then _ else _) = _
  rw [if_neg (by decide), if_neg (by decide), if_neg (by decide), if_neg (by decide), if_neg (by decide),
    if_neg (by decide), if_pos rfl, if_neg (by omega)]
  show (match skip t with | [] => none | d :: l => _) = _
  rw [h1]
  rfl

theorem value_obj {fuel n : Nat} {t l r : List Char} {c : Char} {x : List (String × Data)} (h1 : skip t = c :: l) (h2 : c ≠ '}')
    (h3 : fields fuel (n + 1) (c :: l) = some (x, r)) : value (fuel + 1) (n + 2) ('{' :: t) = some (.obj x, r) := by
  rw [value, skip_cons _ (by decide)]
  show (if _ then _ else _) = _
  rw [if_neg (by decide), if_neg (by decide), if_neg (by decide), if_neg (by decide), if_neg (by decide),
    if_neg (by decide), if_neg (by decide), if_pos rfl, if_neg (by omega)]
  show (match skip t with | [] => none | d :: l => _) = _
  rw [h1]
  show (if _ then _ else _) = _
  rw [if_neg h2]
  show Option.map _ (fields fuel (n + 1) (c :: l)) = _
  rw [h3]
  rfl

theorem value_obj_nil {fuel n : Nat} {t r : List Char} (h1 : skip t = '}' :: r) :
    value (fuel + 1) (n + 2) ('{' :: t) = some (.obj [], r) := by
  rw [value, skip_cons _ (by decide)]
  show (if _ then _ else _) = _
  rw [if_neg (by decide), if_neg (by decide), if_neg (by decide), if_neg (by decide), if_neg (by decide),
    if_neg (by decide), if_neg (by decide), if_pos rfl, if_neg (by omega)]
  show (match skip t with | [] => none | d :: l => _) = _
  rw [h1]
  rfl

/-- The members from one member on. -/
theorem fields_member {fuel n : Nat} {k : String} {d : Data} {w r : List Char} (h : ReadsMember n k d w)
    (hf : w.length ≤ fuel) {c : Char} (hc : c = '}' ∨ c = ',') : fields (fuel + 1) (n + 1) (w ++ c :: r) =
      if c = '}' then some ([(k, d)], r) else (fields fuel (n + 1) r).map fun x => ((k, d) :: x.1, x.2) := by
  obtain ⟨a, s, b, c', v, e, l, ha, hs, hb, hc', he, rfl, rfl, hv⟩ := h
  have hstop : Stops (c :: r) := by rcases hc with rfl | rfl; exacts [stops_brace r, stops_comma r]
  have hsp : isSpace c = false := by rcases hc with rfl | rfl <;> decide
  simp only [List.append_assoc, List.cons_append]
  rw [fields, skip_stop ha (by decide)]
  show (if _ then _ else _) = _
  rw [if_pos rfl, readStr_spelledAll hs]
  show (match skip (b ++ ':' :: (c' ++ (v ++ (e ++ c :: r)))) with | [] => none | c :: l => _) = _
  rw [skip_stop hb (by decide)]
  show (if _ then _ else _) = _
  rw [if_pos rfl, value_blank hc', hv fuel _ (by simp only [List.length_append, List.length_cons] at hf; omega) (he.stops hstop)]
  show (match skip (e ++ c :: r) with | [] => none | c :: l => _) = _
  rw [skip_stop he hsp]
  rcases hc with rfl | rfl
  · rfl
  · rfl

theorem written_reads {n : Nat} {d : Data} {w : List Char} (h : Written n d w) : ReadsValue n d w := by
  refine Written.rec (motive_1 := fun n d w _ => ReadsValue n d w) (motive_2 := fun n l w _ => ReadsItems n l w)
    (motive_3 := fun n fs w _ => ReadsFields n fs w) (motive_4 := fun n k d w _ => ReadsMember n k d w)
    ?_ ?_ ?_ ?_ ?_ ?_ ?_ ?_ ?_ ?_ ?_ ?_ ?_ ?_ ?_ ?_ h
  · rintro n (_ | fuel) rest hf hr
    · exact absurd hf (by decide)
    · rfl
  · rintro n (_ | fuel) rest hf hr
    · exact absurd hf (by decide)
    · rfl
  · rintro n (_ | fuel) rest hf hr
    · exact absurd hf (by decide)
    · rfl
  · rintro n w hw (_ | fuel) rest hf hr
    · exact absurd (List.length_eq_zero_iff.1 (Nat.le_zero.1 hf)) hw.1.1
    · have := number_stop hw .absent .absent hr
      rw [numeral, if_pos ⟨rfl, rfl⟩, List.append_nil, List.append_nil] at this
      obtain ⟨c, l, rfl, hc⟩ := hw.head
      rw [← this]
      exact value_digit hc
  · rintro n w fr ex hw hfr hex hne (_ | fuel) rest hf hr
    · obtain ⟨c, l, rfl, hc⟩ := hw.head
      simp at hf
    · have := number_stop hw hfr hex hr
      rw [numeral, if_neg (by rintro ⟨rfl, rfl⟩; exact hne rfl)] at this
      obtain ⟨c, l, rfl, hc⟩ := hw.head
      rw [← this]
      exact value_digit hc
  · rintro n w fr ex hw hfr hex (_ | fuel) rest hf hr
    · simp at hf
    · rw [← negative_stop hw hfr hex hr]
      rfl
  · rintro n l w hl (_ | fuel) rest hf hr
    · simp at hf
    · show (readStr [] ((w ++ ['"']) ++ rest)).map (fun r => (Data.str (String.ofList r.1), r.2)) = _
      rw [List.append_assoc, List.cons_append, List.nil_append, readStr_spelledAll hl]
      rfl
  · rintro n a ha (_ | fuel) rest hf hr
    · simp at hf
    · refine value_arr_nil (t := a ++ [']'] ++ rest) ?_
      rw [List.append_assoc]
      exact skip_stop ha (by decide) rest
  · rintro n l w - ⟨⟨c, t, h1, h2, h3⟩, h4⟩ (_ | fuel) rest hf hr
    · simp at hf
    · have hi := h4 fuel rest (by simp only [List.length_cons, List.length_append, List.length_nil] at hf; omega)
      rw [← items_skip, h3] at hi
      refine value_arr (t := w ++ [']'] ++ rest) ?_ h2 hi
      rw [List.append_assoc]
      exact h3 _
  · rintro n a ha (_ | fuel) rest hf hr
    · simp at hf
    · refine value_obj_nil (t := a ++ ['}'] ++ rest) ?_
      rw [List.append_assoc]
      exact skip_stop ha (by decide) rest
  · rintro n l w - ⟨⟨t, h3⟩, h4⟩ (_ | fuel) rest hf hr
    · simp at hf
    · have hi := h4 fuel rest (by simp only [List.length_cons, List.length_append, List.length_nil] at hf; omega)
      rw [← fields_skip, h3] at hi
      refine value_obj (t := w ++ ['}'] ++ rest) ?_ (by decide) hi
      rw [List.append_assoc]
      exact h3 _
  · intro n d a w b ha hw hb ih
    obtain ⟨c, t, rfl, hc, hc'⟩ := hw.head
    refine ⟨⟨c, t ++ b, ?_, hc', fun r => ?_⟩, ?_⟩
    · rw [List.append_assoc]; exact skip_stop ha hc _
    · rw [List.append_assoc, List.append_assoc, List.append_assoc]; exact skip_stop ha hc _
    · rintro (_ | fuel) rest hf
      · omega
      · rw [List.append_assoc, List.append_assoc, items, value_blank ha,
          ih fuel _ (by simp only [List.length_append, List.length_cons] at hf ⊢; omega) (hb.stops (stops_bracket rest))]
        show (match skip (b ++ ']' :: rest) with | [] => none | c :: l => _) = _
        rw [skip_stop hb (by decide)]
        rfl
  · intro n d l a w b v ha hw hb _ ih ih2
    obtain ⟨c, t, rfl, hc, hc'⟩ := hw.head
    refine ⟨⟨c, t ++ b ++ ',' :: v, ?_, hc', fun r => ?_⟩, ?_⟩
    · simp only [List.append_assoc, List.cons_append]; exact skip_stop ha hc _
    · simp only [List.append_assoc, List.cons_append]; exact skip_stop ha hc _
    · rintro (_ | fuel) rest hf
      · omega
      · simp only [List.length_append, List.length_cons] at hf
        rw [show a ++ c :: t ++ b ++ ',' :: v ++ ']' :: rest = a ++ (c :: t ++ (b ++ ',' :: (v ++ ']' :: rest))) by simp,
          items, value_blank ha, ih fuel _ (by simp only [List.length_cons]; omega) (hb.stops (stops_comma _))]
        show (match skip (b ++ ',' :: (v ++ ']' :: rest)) with | [] => none | c :: l => _) = _
        rw [skip_stop hb (by decide)]
        show Option.map _ (items fuel (n + 1) (v ++ ']' :: rest)) = _
        rw [ih2.2 fuel rest (by omega)]
        rfl
  · intro n d w k _ ih
    refine ⟨?_, ?_⟩
    · obtain ⟨a, s, b, c', v, e, l, ha, hs, hb, hc', he, rfl, rfl, hv⟩ := ih
      refine ⟨s ++ '"' :: (b ++ ':' :: (c' ++ v ++ e)), fun r => ?_⟩
      rw [List.append_assoc, List.cons_append]
      exact skip_stop ha (by decide) _
    · rintro (_ | fuel) rest hf
      · omega
      · rw [fields_member ih (by omega) (.inl rfl)]
        rfl
  · intro n d fs w v k _ _ ih ih2
    refine ⟨?_, ?_⟩
    · obtain ⟨a, s, b, c', v', e, l, ha, hs, hb, hc', he, rfl, rfl, hv⟩ := ih
      refine ⟨s ++ '"' :: (b ++ ':' :: (c' ++ v' ++ e)) ++ ',' :: v, fun r => ?_⟩
      simp only [List.append_assoc, List.cons_append]
      exact skip_stop ha (by decide) _
    · rintro (_ | fuel) rest hf
      · omega
      · simp only [List.length_append, List.length_cons] at hf
        rw [List.append_assoc, List.cons_append, fields_member ih (by omega) (.inr rfl), if_neg (by decide),
          ih2.2 fuel rest (by omega)]
        rfl
  · intro n d k a s b c w e ha hs hb hc _ he ih
    exact ⟨a, s, b, c, w, e, k, ha, hs, hb, hc, he, rfl, rfl, ih⟩

/-! ### Only such texts -/

/-- Whatever is read as a value stands for it. -/
def SoundValue (fuel : Nat) : Prop := ∀ (depth : Nat) (text rest : List Char) (d : Data),
  value fuel depth text = some (d, rest) → ∃ a w, Blank a ∧ Written (depth - 1) d w ∧ text = a ++ w ++ rest

/-- Whatever is read as elements stands for them. -/
def SoundItems (fuel : Nat) : Prop := ∀ (depth : Nat) (text rest : List Char) (l : List Data),
  items fuel depth text = some (l, rest) → ∃ w, Items (depth - 1) l w ∧ text = w ++ ']' :: rest

/-- Whatever is read as members stands for them. -/
def SoundFields (fuel : Nat) : Prop := ∀ (depth : Nat) (text rest : List Char) (fs : List (String × Data)),
  fields fuel depth text = some (fs, rest) → ∃ w, Fields (depth - 1) fs w ∧ text = w ++ '}' :: rest

theorem value_sound {fuel : Nat} (hi : SoundItems fuel) (hf : SoundFields fuel) : SoundValue (fuel + 1) := by
  intro depth text rest d h
  obtain ⟨a, ha, hs⟩ := skip_split text
  suffices key : ∃ w, Written (depth - 1) d w ∧ skip text = w ++ rest by
    obtain ⟨w, h1, h2⟩ := key
    exact ⟨a, w, ha, h1, by rw [List.append_assoc, ← h2, ← hs]⟩
  clear hs ha
  rw [value] at h
  cases ht : skip text with
  | nil => rw [ht] at h; cases h
  | cons c l =>
  rw [ht] at h
  dsimp only at h
  by_cases h1 : c = 'n'
  · rw [if_pos h1] at h
    obtain ⟨rfl, rfl⟩ := keyword_some h
    exact ⟨_, .null, by rw [h1]; rfl⟩
  rw [if_neg h1] at h
  by_cases h2 : c = 't'
  · rw [if_pos h2] at h
    obtain ⟨rfl, rfl⟩ := keyword_some h
    exact ⟨_, .yes, by rw [h2]; rfl⟩
  rw [if_neg h2] at h
  by_cases h3 : c = 'f'
  · rw [if_pos h3] at h
    obtain ⟨rfl, rfl⟩ := keyword_some h
    exact ⟨_, .no, by rw [h3]; rfl⟩
  rw [if_neg h3] at h
  by_cases h4 : c = '-'
  · rw [if_pos h4] at h
    obtain ⟨w, fr, ex, hw, hfr, hex, rfl, rfl⟩ := negative_some h
    exact ⟨_, .minus hw hfr hex, by rw [h4]; rfl⟩
  rw [if_neg h4] at h
  by_cases h5 : isDigit c = true
  · rw [if_pos h5] at h
    obtain ⟨w, fr, ex, hw, hfr, hex, hl, rfl⟩ := number_some h
    by_cases hz : fr = [] ∧ ex = []
    · refine ⟨_, ?_, hl⟩
      rw [numeral, if_pos hz, hz.1, hz.2, List.append_nil, List.append_nil]
      exact .whole hw
    · refine ⟨_, ?_, hl⟩
      rw [numeral, if_neg hz]
      exact .real hw hfr hex (fun h => hz (List.append_eq_nil_iff.1 h))
  rw [if_neg h5] at h
  by_cases h6 : c = '"'
  · rw [if_pos h6] at h
    obtain ⟨⟨x, r⟩, hr, he⟩ := Option.map_eq_some_iff.1 h
    cases he
    obtain ⟨w, hw, rfl⟩ := readStr_some hr
    exact ⟨_, .str hw, by rw [h6]; simp⟩
  rw [if_neg h6] at h
  by_cases h7 : c = '['
  · rw [if_pos h7] at h
    by_cases hd : depth ≤ 1
    · rw [if_pos hd] at h; cases h
    rw [if_neg hd] at h
    obtain ⟨n, rfl⟩ : ∃ n, depth = n + 2 := ⟨depth - 2, by omega⟩
    obtain ⟨b, hb, hs⟩ := skip_split l
    cases hl : skip l with
    | nil => rw [hl] at h; cases h
    | cons e t =>
      rw [hl] at h hs
      dsimp only at h
      by_cases he : e = ']'
      · rw [if_pos he] at h
        cases h
        exact ⟨_, .emptyArr (n := n) hb, by rw [h7, hs, he]; simp⟩
      · rw [if_neg he] at h
        obtain ⟨⟨x, r⟩, hr, he⟩ := Option.map_eq_some_iff.1 h
        cases he
        rw [← hl, items_skip] at hr
        obtain ⟨w, hw, rfl⟩ := hi _ _ _ _ hr
        exact ⟨_, .arr (n := n) hw, by rw [h7]; simp⟩
  rw [if_neg h7] at h
  by_cases h8 : c = '{'
  · rw [if_pos h8] at h
    by_cases hd : depth ≤ 1
    · rw [if_pos hd] at h; cases h
    rw [if_neg hd] at h
    obtain ⟨n, rfl⟩ : ∃ n, depth = n + 2 := ⟨depth - 2, by omega⟩
    obtain ⟨b, hb, hs⟩ := skip_split l
    cases hl : skip l with
    | nil => rw [hl] at h; cases h
    | cons e t =>
      rw [hl] at h hs
      dsimp only at h
      by_cases he : e = '}'
      · rw [if_pos he] at h
        cases h
        exact ⟨_, .emptyObj (n := n) hb, by rw [h8, hs, he]; simp⟩
      · rw [if_neg he] at h
        obtain ⟨⟨x, r⟩, hr, he⟩ := Option.map_eq_some_iff.1 h
        cases he
        rw [← hl, fields_skip] at hr
        obtain ⟨w, hw, rfl⟩ := hf _ _ _ _ hr
        exact ⟨_, .obj (n := n) hw, by rw [h8]; simp⟩
  rw [if_neg h8] at h
  cases h

theorem items_sound {fuel : Nat} (hv : SoundValue fuel) (hi : SoundItems fuel) : SoundItems (fuel + 1) := by
  intro depth text rest l h
  rw [items] at h
  cases he : value fuel depth text with
  | none => rw [he] at h; cases h
  | some x =>
    obtain ⟨d, t⟩ := x
    rw [he] at h
    dsimp only at h
    obtain ⟨a, w, ha, hw, rfl⟩ := hv _ _ _ _ he
    obtain ⟨b, hb, hs⟩ := skip_split t
    cases hl : skip t with
    | nil => rw [hl] at h; cases h
    | cons c t' =>
      rw [hl] at h hs
      dsimp only at h
      by_cases h1 : c = ']'
      · rw [if_pos h1] at h
        cases h
        exact ⟨_, .one ha hw hb, by rw [hs, h1]; simp⟩
      rw [if_neg h1] at h
      by_cases h2 : c = ','
      · rw [if_pos h2] at h
        obtain ⟨⟨x, r⟩, hr, he⟩ := Option.map_eq_some_iff.1 h
        cases he
        obtain ⟨v, hv', rfl⟩ := hi _ _ _ _ hr
        exact ⟨_, .more ha hw hb hv', by rw [hs, h2]; simp⟩
      rw [if_neg h2] at h
      cases h

theorem fields_sound {fuel : Nat} (hv : SoundValue fuel) (hf : SoundFields fuel) : SoundFields (fuel + 1) := by
  intro depth text rest fs h
  rw [fields] at h
  obtain ⟨a, ha, hs⟩ := skip_split text
  cases ht : skip text with
  | nil => rw [ht] at h; cases h
  | cons q l =>
  rw [ht] at h hs
  dsimp only at h
  by_cases hq : q = '"'
  case neg => rw [if_neg hq] at h; cases h
  rw [if_pos hq] at h
  cases hk : readStr [] l with
  | none => rw [hk] at h; cases h
  | some x =>
  obtain ⟨k, l2⟩ := x
  rw [hk] at h
  dsimp only at h
  obtain ⟨s, hsp, rfl⟩ := readStr_some hk
  obtain ⟨b, hb, hs2⟩ := skip_split l2
  cases hl2 : skip l2 with
  | nil => rw [hl2] at h; cases h
  | cons c l3 =>
  rw [hl2] at h hs2
  dsimp only at h
  by_cases hc : c = ':'
  case neg => rw [if_neg hc] at h; cases h
  rw [if_pos hc] at h
  cases he : value fuel depth l3 with
  | none => rw [he] at h; cases h
  | some x =>
  obtain ⟨d, t⟩ := x
  rw [he] at h
  dsimp only at h
  obtain ⟨c', w, hc', hw, rfl⟩ := hv _ _ _ _ he
  obtain ⟨e, hee, hs3⟩ := skip_split t
  cases hl3 : skip t with
  | nil => rw [hl3] at h; cases h
  | cons y l4 =>
  rw [hl3] at h hs3
  dsimp only at h
  have hm : Member (depth - 1) (String.ofList k) d (a ++ '"' :: (s ++ '"' :: (b ++ ':' :: (c' ++ w ++ e)))) :=
    .mk ha hsp hb hc' hw hee
  by_cases h1 : y = '}'
  · rw [if_pos h1] at h
    cases h
    exact ⟨_, .one hm, by rw [hs, hq, hs2, hc, hs3, h1]; simp⟩
  rw [if_neg h1] at h
  by_cases h2 : y = ','
  · rw [if_pos h2] at h
    obtain ⟨⟨x, r⟩, hr, hx⟩ := Option.map_eq_some_iff.1 h
    cases hx
    obtain ⟨v, hv', rfl⟩ := hf _ _ _ _ hr
    exact ⟨_, .more hm hv', by rw [hs, hq, hs2, hc, hs3, h2]; simp⟩
  rw [if_neg h2] at h
  cases h

theorem all_sound (fuel : Nat) : SoundValue fuel ∧ SoundItems fuel ∧ SoundFields fuel := by
  induction fuel with
  | zero =>
    refine ⟨fun _ _ _ _ h => ?_, fun _ _ _ _ h => ?_, fun _ _ _ _ h => ?_⟩
    · rw [value] at h; cases h
    · rw [items] at h; cases h
    · rw [fields] at h; cases h
  | succ fuel ih => exact ⟨value_sound ih.2.1 ih.2.2, items_sound ih.1 ih.2.1, fields_sound ih.1 ih.2.2⟩

/-- The reader accepts exactly the texts of the grammar. -/
theorem parse_iff (text : String) (d : Data) : parse text = some d ↔ IsText text d := by
  constructor
  · intro h
    unfold parse at h
    cases hv : value text.toList.length 128 text.toList with
    | none => rw [hv] at h; cases h
    | some x =>
      obtain ⟨e, rest⟩ := x
      rw [hv] at h
      dsimp only at h
      by_cases hr : skip rest = []
      · rw [if_pos hr] at h
        cases h
        obtain ⟨a, w, ha, hw, ht⟩ := (all_sound _).1 _ _ _ _ hv
        exact ⟨a, w, rest, ha, (skip_nil_iff _).1 hr, ht, hw⟩
      · rw [if_neg hr] at h; cases h
  · rintro ⟨a, w, b, ha, hb, ht, hw⟩
    unfold parse
    have : value text.toList.length 128 text.toList = some (d, b) := by
      rw [ht, List.append_assoc, value_blank ha]
      exact written_reads hw _ b (by simp only [List.length_append]; omega) hb.stops_end
    rw [this]
    show (if skip b = [] then some d else none) = _
    rw [if_pos ((skip_nil_iff b).2 hb)]

end Verif.Json
