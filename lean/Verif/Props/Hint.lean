import Verif.Lemmas.Hint
/-
C27: exactly the documented comments are hints.
-/
namespace Verif

open Hint

/-- C27: a comment text is captured with a scope's word exactly when it reads as the documented hint
for that word. -/
theorem C27_comment_is_hint_iff (cc : CharClasses) (hs : cc.Sane) (text : List Char)
    (s : IgnoreScope) : captureHint cc text = some s.word ↔ ReadsAs cc s.word text :=
  captureHint_iff cc hs text s

/-- C27: a text is not captured at all exactly when it reads as none of the documented hints. -/
theorem C27_comment_is_no_hint_iff (cc : CharClasses) (hs : cc.Sane) (text : List Char) :
    captureHint cc text = none ↔ ∀ s : IgnoreScope, ¬ ReadsAs cc s.word text := by
  constructor
  · intro h s hr
    rw [← captureHint_iff cc hs, h] at hr; cases hr
  · intro h
    cases e : captureHint cc text with
    | none => rfl
    | some w =>
      obtain ⟨s, rfl⟩ := captureHint_word cc e
      exact absurd ((captureHint_iff cc hs text s).1 e) (h s)

/-- C27: a construct is given scope `s` exactly when some comment leading its end or its start reads
as the hint for `s`, and no comment before it (end position first) reads as any hint. -/
theorem C27_scope_is_first_hint (cc : CharClasses) (hs : cc.Sane) (comments : Comments) (sp : Span)
    (s : IgnoreScope) :
    shouldIgnore cc comments sp = some s ↔
      ∃ before text after,
        comments.leading sp.hi ++ comments.leading sp.lo = before ++ text :: after ∧
        ReadsAs cc s.word text ∧
        ∀ t ∈ before, ∀ s' : IgnoreScope, ¬ ReadsAs cc s'.word t := by
  rw [shouldIgnore_iff_lookup, lookup_eq, List.findSome?_eq_some_iff]
  constructor
  · rintro ⟨l1, a, l2, e, h1, h2⟩
    exact ⟨l1, a, l2, e, (captureHint_iff cc hs a s).1 h1,
      fun t ht => (C27_comment_is_no_hint_iff cc hs t).1 (h2 t ht)⟩
  · rintro ⟨l1, a, l2, e, h1, h2⟩
    exact ⟨l1, a, l2, e, (captureHint_iff cc hs a s).2 h1,
      fun t ht => (C27_comment_is_no_hint_iff cc hs t).2 (h2 t ht)⟩

/-- C27: a construct is given no scope exactly when none of those comments reads as a hint. -/
theorem C27_no_scope_iff (cc : CharClasses) (hs : cc.Sane) (comments : Comments) (sp : Span) :
    shouldIgnore cc comments sp = none ↔
      ∀ t ∈ comments.leading sp.hi ++ comments.leading sp.lo,
        ∀ s : IgnoreScope, ¬ ReadsAs cc s.word t := by
  have hnone : shouldIgnore cc comments sp = none ↔ lookup cc comments sp = none := by
    constructor
    · intro h
      cases e : lookup cc comments sp with
      | none => rfl
      | some w =>
        have e' := e
        rw [lookup_eq] at e'
        obtain ⟨t, _, ht⟩ := List.exists_of_findSome?_eq_some e'
        obtain ⟨s, rfl⟩ := captureHint_word cc ht
        rw [(shouldIgnore_iff_lookup cc comments sp s).2 e] at h; cases h
    · intro h
      unfold shouldIgnore
      rw [h]
  rw [hnone, lookup_eq, List.findSome?_eq_none_iff]
  exact ⟨fun h t ht => (C27_comment_is_no_hint_iff cc hs t).1 (h t ht),
    fun h t ht => (C27_comment_is_no_hint_iff cc hs t).2 (h t ht)⟩

/-- C27: the whole file is ignored exactly when some comment at the program's start or end, leading
or trailing, reads as the documented file hint. -/
theorem C27_file_hint_iff (cc : CharClasses) (hs : cc.Sane) (comments : Comments) (sp : Span) :
    shouldIgnoreFile cc comments sp = true ↔
      ∃ text, (text ∈ comments.leading sp.lo ∨ text ∈ comments.leading sp.hi ∨
          text ∈ comments.trailing sp.lo ∨ text ∈ comments.trailing sp.hi) ∧
        ReadsAs cc "file".toList text := by
  have key : ∀ text, isFileHint cc text = true ↔ ReadsAs cc "file".toList text := by
    intro text
    have := prefix_keyword_iff cc hs text 'f' "ile".toList (sane_f hs)
    refine Iff.trans ?_ this
    unfold isFileHint
    cases hintPrefix cc text <;> simp <;> rfl
  unfold shouldIgnoreFile
  simp only [List.any_cons, List.any_nil, Bool.or_false, Bool.or_eq_true, List.any_eq_true, key]
  constructor
  · rintro (⟨x, h, r⟩ | ⟨x, h, r⟩ | ⟨x, h, r⟩ | ⟨x, h, r⟩)
    · exact ⟨x, .inl h, r⟩
    · exact ⟨x, .inr (.inl h), r⟩
    · exact ⟨x, .inr (.inr (.inl h)), r⟩
    · exact ⟨x, .inr (.inr (.inr h)), r⟩
  · rintro ⟨x, h | h | h | h, r⟩
    · exact .inl ⟨x, h, r⟩
    · exact .inr (.inl ⟨x, h, r⟩)
    · exact .inr (.inr (.inl ⟨x, h, r⟩))
    · exact .inr (.inr (.inr ⟨x, h, r⟩))

/-- ASCII character classes, for the examples. -/
def asciiClasses : CharClasses where
  space c := c = ' ' || c = '\n' || c = '\t'
  word c := c.isAlphanum || c = '_'

/-- The hypothesis of the theorems above holds of these classes. -/
theorem asciiClasses_sane : asciiClasses.Sane := by
  intro c h1 h2
  have h1' : 97 ≤ c.val := h1
  have h2' : c.val ≤ 122 := h2
  have ne : ∀ d : Char, d.val < 97 → c ≠ d := by
    rintro d hd rfl
    exact absurd h1' (UInt32.not_le.2 hd)
  constructor
  · simp [asciiClasses, ne ' ' (by decide), ne '\n' (by decide), ne '\t' (by decide)]
  · have : c.isAlphanum = true := by
      simp [Char.isAlphanum, Char.isAlpha, Char.isLower, h1', h2']
    simp [asciiClasses, this]

example : captureHint asciiClasses " istanbul ignore next: legacy".toList = some "next".toList := by decide
example : captureHint asciiClasses "istanbul  ignore if".toList = some "if".toList := by decide
example : captureHint asciiClasses " istanbul ignore iffy".toList = none := by decide
example : captureHint asciiClasses " see istanbul ignore next".toList = none := by decide
example : shouldIgnore asciiClasses
    { leading := fun p => if p = 3 then ["x".toList, "istanbul ignore else ".toList] else
        if p = 7 then [" istanbul ignore if".toList] else [], trailing := fun _ => [] } ⟨3, 7⟩ = some .if := by
  decide
example : shouldIgnoreFile asciiClasses
    { leading := fun _ => [], trailing := fun p => if p = 9 then [" istanbul ignore file".toList] else [] }
    ⟨1, 9⟩ = true := by decide

end Verif
