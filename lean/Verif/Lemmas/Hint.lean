import Verif.Spec.Hint
/-
Reading hint comments: the matcher against the grammar.
-/
namespace Verif

open Hint

theorem skipSpace_append (cc : CharClasses) (w r : List Char) (hw : ∀ c ∈ w, cc.space c = true) :
    skipSpace cc (w ++ r) = skipSpace cc r := by
  induction w with
  | nil => rfl
  | cons c w ih =>
    simp only [List.cons_append, skipSpace, hw c (by simp), if_true]
    exact ih fun c hc => hw c (by simp [hc])

theorem skipSpace_split (cc : CharClasses) (cs : List Char) :
    ∃ w, cs = w ++ skipSpace cc cs ∧ ∀ c ∈ w, cc.space c = true := by
  induction cs with
  | nil => exact ⟨[], rfl, by simp⟩
  | cons c cs ih =>
    simp only [skipSpace]
    split
    · next h =>
      obtain ⟨w, h1, h2⟩ := ih
      refine ⟨c :: w, by rw [List.cons_append, ← h1], ?_⟩
      intro x hx
      rcases List.mem_cons.1 hx with rfl | hx
      · exact h
      · exact h2 x hx
    · exact ⟨[], rfl, by simp⟩

theorem literal_iff (p cs r : List Char) : literal p cs = some r ↔ cs = p ++ r := by
  induction p generalizing cs with
  | nil => simp [literal]
  | cons x p ih =>
    cases cs with
    | nil => simp [literal]
    | cons c cs =>
      simp only [literal]
      split
      · next h => subst h; simp [ih]
      · next h => simp only [reduceCtorEq, List.cons_append, List.cons.injEq, false_iff]; exact fun h' => h h'.1.symm

theorem boundary_iff (cc : CharClasses) (r : List Char) :
    boundary cc r = true ↔ r = [] ∨ ∃ c r', r = c :: r' ∧ cc.word c = false := by
  cases r <;> simp [boundary]

theorem keyword_iff (cc : CharClasses) (kw cs : List Char) :
    keyword cc kw cs = true ↔
      ∃ r, cs = kw ++ r ∧ (r = [] ∨ ∃ c r', r = c :: r' ∧ cc.word c = false) := by
  unfold keyword
  cases h : literal kw cs with
  | none =>
    simp only [Bool.false_eq_true, false_iff, not_exists, not_and]
    intro r hr
    rw [← literal_iff, h] at hr; cases hr
  | some r =>
    simp only [boundary_iff]
    rw [literal_iff] at h
    subst h
    constructor
    · intro hb; exact ⟨r, rfl, hb⟩
    · rintro ⟨r', h1, h2⟩
      rw [List.append_cancel_left h1]; exact h2

theorem someSpace_append (cc : CharClasses) (w r : List Char) (hne : w ≠ [])
    (hw : ∀ c ∈ w, cc.space c = true) : someSpace cc (w ++ r) = some (skipSpace cc r) := by
  cases w with
  | nil => exact absurd rfl hne
  | cons c w =>
    simp only [List.cons_append, someSpace, hw c (by simp), if_true]
    rw [skipSpace_append cc w r fun c hc => hw c (by simp [hc])]

theorem someSpace_split (cc : CharClasses) {cs r : List Char} (h : someSpace cc cs = some r) :
    ∃ w, w ≠ [] ∧ cs = w ++ r ∧ ∀ c ∈ w, cc.space c = true := by
  cases cs with
  | nil => simp [someSpace] at h
  | cons c cs =>
    simp only [someSpace] at h
    split at h
    · next hc =>
      simp only [Option.some.injEq] at h
      subst h
      obtain ⟨w, h1, h2⟩ := skipSpace_split cc cs
      refine ⟨c :: w, by simp, by rw [List.cons_append, ← h1], ?_⟩
      intro x hx
      rcases List.mem_cons.1 hx with rfl | hx
      · exact hc
      · exact h2 x hx
    · cases h

theorem skipSpace_cons_of_not (cc : CharClasses) {c : Char} (cs : List Char) (h : cc.space c = false) :
    skipSpace cc (c :: cs) = c :: cs := by
  simp [skipSpace, h]

theorem hintPrefix_iff (cc : CharClasses) (hs : cc.Sane) (text : List Char) (k : Char)
    (hk : cc.space k = false) (kw : List Char) (P : List Char → Prop) :
    (∃ r, hintPrefix cc text = some (k :: (kw ++ r)) ∧ P r) ↔
      ∃ w1 w2 w3 rest,
        text = w1 ++ "istanbul".toList ++ w2 ++ "ignore".toList ++ w3 ++ (k :: kw) ++ rest ∧
        (∀ c ∈ w1, cc.space c = true) ∧ w2 ≠ [] ∧ (∀ c ∈ w2, cc.space c = true) ∧
        w3 ≠ [] ∧ (∀ c ∈ w3, cc.space c = true) ∧ P rest := by
  have hi : cc.space 'i' = false := (hs 'i' (by decide) (by decide)).1
  constructor
  · rintro ⟨r, h, hp⟩
    unfold hintPrefix at h
    split at h
    · cases h
    · next r1 e1 =>
      split at h
      · cases h
      · next r2 e2 =>
        split at h
        · cases h
        · next r3 e3 =>
          obtain ⟨w1, f1, g1⟩ := skipSpace_split cc text
          rw [literal_iff] at e1 e3
          obtain ⟨w2, n2, f2, g2⟩ := someSpace_split cc e2
          obtain ⟨w3, n3, f3, g3⟩ := someSpace_split cc h
          refine ⟨w1, w2, w3, r, ?_, g1, n2, g2, n3, g3, hp⟩
          rw [f1, e1, f2, e3, f3]
          simp only [List.append_assoc, List.cons_append]
  · rintro ⟨w1, w2, w3, rest, rfl, g1, n2, g2, n3, g3, hp⟩
    refine ⟨rest, ?_, hp⟩
    unfold hintPrefix
    have e1 : skipSpace cc (w1 ++ "istanbul".toList ++ w2 ++ "ignore".toList ++ w3 ++ (k :: kw) ++ rest)
        = "istanbul".toList ++ (w2 ++ ("ignore".toList ++ (w3 ++ (k :: (kw ++ rest))))) := by
      simp only [List.append_assoc]
      rw [skipSpace_append cc w1 _ g1]
      exact skipSpace_cons_of_not cc _ hi
    rw [e1]
    rw [(literal_iff _ _ _).2 rfl]
    simp only
    rw [someSpace_append cc w2 _ n2 g2]
    simp only
    have e2 : skipSpace cc ("ignore".toList ++ (w3 ++ (k :: (kw ++ rest))))
        = "ignore".toList ++ (w3 ++ (k :: (kw ++ rest))) := skipSpace_cons_of_not cc _ hi
    rw [e2, (literal_iff _ _ _).2 rfl]
    simp only
    rw [someSpace_append cc w3 _ n3 g3, skipSpace_cons_of_not cc _ hk]

theorem sane_i {cc : CharClasses} (hs : cc.Sane) : cc.space 'i' = false := (hs 'i' (by decide) (by decide)).1
theorem sane_e {cc : CharClasses} (hs : cc.Sane) : cc.space 'e' = false := (hs 'e' (by decide) (by decide)).1
theorem sane_n {cc : CharClasses} (hs : cc.Sane) : cc.space 'n' = false := (hs 'n' (by decide) (by decide)).1
theorem sane_f {cc : CharClasses} (hs : cc.Sane) : cc.space 'f' = false := (hs 'f' (by decide) (by decide)).1

/-- A word starting with a non-space is read by the prefix matcher and `keyword`. -/
theorem prefix_keyword_iff (cc : CharClasses) (hs : cc.Sane) (text : List Char) (k : Char)
    (kw : List Char) (hk : cc.space k = false) :
    (∃ rest, hintPrefix cc text = some rest ∧ keyword cc (k :: kw) rest = true) ↔
      ReadsAs cc (k :: kw) text := by
  unfold ReadsAs
  rw [← hintPrefix_iff cc hs text k hk kw (fun r => r = [] ∨ ∃ c r', r = c :: r' ∧ cc.word c = false)]
  constructor
  · rintro ⟨rest, h1, h2⟩
    obtain ⟨r, rfl, hr⟩ := (keyword_iff cc _ _).1 h2
    exact ⟨r, h1, hr⟩
  · rintro ⟨r, h1, hr⟩
    exact ⟨_, h1, (keyword_iff cc _ _).2 ⟨r, rfl, hr⟩⟩

/-- The scope a captured word stands for. -/
theorem captureHint_iff (cc : CharClasses) (hs : cc.Sane) (text : List Char) (s : IgnoreScope) :
    captureHint cc text = some s.word ↔ ReadsAs cc s.word text := by
  have key : ∀ s : IgnoreScope, ReadsAs cc s.word text ↔
      ∃ rest, hintPrefix cc text = some rest ∧ keyword cc s.word rest = true := by
    intro s
    cases s
    · exact (prefix_keyword_iff cc hs text 'n' "ext".toList (sane_n hs)).symm
    · exact (prefix_keyword_iff cc hs text 'i' "f".toList (sane_i hs)).symm
    · exact (prefix_keyword_iff cc hs text 'e' "lse".toList (sane_e hs)).symm
  rw [key]
  unfold captureHint
  cases hp : hintPrefix cc text with
  | none => simp
  | some rest =>
    simp only [Option.some.injEq, exists_eq_left']
    have excl : ∀ a b : IgnoreScope, keyword cc a.word rest = true → keyword cc b.word rest = true →
        a = b := by
      intro a b ha hb
      obtain ⟨r, h1, _⟩ := (keyword_iff cc _ _).1 ha
      obtain ⟨r', h2, _⟩ := (keyword_iff cc _ _).1 hb
      rw [h1] at h2
      cases a <;> cases b <;> first | rfl | (simp [IgnoreScope.word] at h2)
    split
    · next h =>
      constructor
      · intro e
        have : s = .if := by cases s <;> simp_all [IgnoreScope.word]
        subst this; exact h
      · intro e
        have := excl s .if e h
        subst this; rfl
    · next h1 =>
      split
      · next h =>
        constructor
        · intro e
          have : s = .else := by cases s <;> simp_all [IgnoreScope.word]
          subst this; exact h
        · intro e
          have := excl s .else e h
          subst this; rfl
      · next h2 =>
        split
        · next h =>
          constructor
          · intro e
            have : s = .next := by cases s <;> simp_all [IgnoreScope.word]
            subst this; exact h
          · intro e
            have := excl s .next e h
            subst this; rfl
        · next h3 =>
          simp only [reduceCtorEq, false_iff]
          intro e
          cases s
          · exact h3 e
          · exact h1 e
          · exact h2 e

/-- What is captured is always one of the three words. -/
theorem captureHint_word (cc : CharClasses) {text h : List Char} (e : captureHint cc text = some h) :
    ∃ s : IgnoreScope, h = s.word := by
  unfold captureHint at e
  split at e
  · cases e
  · split at e
    · exact ⟨.if, (Option.some.inj e).symm⟩
    · split at e
      · exact ⟨.else, (Option.some.inj e).symm⟩
      · split at e
        · exact ⟨.next, (Option.some.inj e).symm⟩
        · cases e

theorem word_inj {a b : IgnoreScope} (h : a.word = b.word) : a = b := by
  cases a <;> cases b <;> first | rfl | (simp [IgnoreScope.word] at h)

theorem lookup_eq (cc : CharClasses) (comments : Comments) (sp : Span) :
    lookup cc comments sp =
      (comments.leading sp.hi ++ comments.leading sp.lo).findSome? (captureHint cc) := by
  unfold lookup
  rw [List.findSome?_append]
  cases (comments.leading sp.hi).findSome? (captureHint cc) <;> rfl

theorem shouldIgnore_iff_lookup (cc : CharClasses) (comments : Comments) (sp : Span) (s : IgnoreScope) :
    shouldIgnore cc comments sp = some s ↔ lookup cc comments sp = some s.word := by
  unfold shouldIgnore
  cases h : lookup cc comments sp with
  | none => simp
  | some w =>
    rw [lookup_eq] at h
    obtain ⟨t, _, ht⟩ := List.exists_of_findSome?_eq_some h
    obtain ⟨s', rfl⟩ := captureHint_word cc ht
    simp only [Option.some.injEq]
    constructor
    · intro e
      cases s' <;> simp_all [IgnoreScope.word] <;> subst e <;> rfl
    · intro e
      rw [word_inj e]
      cases s <;> simp [IgnoreScope.word]

end Verif
