import Verif.Lemmas.Akin
import Verif.Props.Hint
import Verif.Props.Instrument
/-
C49: layout, names, constants and comments other than hints do not matter.
-/
namespace Verif
open Node Build Visitor

/-- C49: two programs of the same form, whose names, texts and spans differ by `d`. If the spans carry the same hints and the
names are on the list of ignored methods together, they are instrumented alike: the outputs have the same form with the same
counters in the same places, and the reports have the same keys, kinds and counts. -/
theorem C49_alike {d : Change} {cx cx' : Ctx} {fuel : Nat} {path : String} {sm : Option SourceMap} {p p' q : Node}
    {c : SourceCoverage} (hd : d.span Span.dummy Span.dummy) (hh : ∀ a b, d.span a b → cx.hint a = cx'.hint b)
    (hi : ∀ x y, d.names x y → cx.ignoreMethods.contains x = cx'.ignoreMethods.contains y)
    (hl : cx.reportLogic = cx'.reportLogic) (hp : Akin d false p p')
    (hf : Hint.shouldIgnoreFile cx.cc cx.comments p.span = Hint.shouldIgnoreFile cx'.cc cx'.comments p'.span)
    (h : instrument cx fuel path sm p = .ok (q, c)) :
    ∃ q' c', instrument cx' fuel path sm p' = .ok (q', c') ∧ Akin d false q q' ∧
      AkinReports d (d.ranges cx cx') false c.inner c'.inner := by
  have hin : (Lock.make d false cx cx' hd (fun h => hh _ _ h) (fun h => hi _ _ h) (fun _ => hl) (fun h => by cases h)).In p p' :=
    ⟨hp, fun h => by cases h⟩
  obtain ⟨q', c', h1, h2, h3⟩ := Lock.instrument hin hf h
  exact ⟨q', c', h1, h2, h3.inner⟩

/-- C49: instrumentation of one of the programs succeeds exactly when that of the other does. -/
theorem C49_succeeds_iff {d : Change} {cx cx' : Ctx} {fuel : Nat} {path : String} {sm : Option SourceMap} {p p' : Node}
    (hd : d.span Span.dummy Span.dummy) (hh : ∀ a b, d.span a b → cx.hint a = cx'.hint b)
    (hi : ∀ x y, d.names x y → cx.ignoreMethods.contains x = cx'.ignoreMethods.contains y)
    (hl : cx.reportLogic = cx'.reportLogic) (hp : Akin d false p p')
    (hf : Hint.shouldIgnoreFile cx.cc cx.comments p.span = Hint.shouldIgnoreFile cx'.cc cx'.comments p'.span) :
    (∃ r, instrument cx fuel path sm p = .ok r) ↔ ∃ r, instrument cx' fuel path sm p' = .ok r := by
  constructor
  · rintro ⟨⟨q, c⟩, h⟩
    obtain ⟨q', c', h1, -⟩ := C49_alike hd hh hi hl hp hf h
    exact ⟨_, h1⟩
  · rintro ⟨⟨q, c⟩, h⟩
    obtain ⟨q', c', h1, -⟩ := C49_alike (d := d.flip) hd (fun a b h => (hh b a h).symm)
      (fun x y h => (hi y x (h.imp Eq.symm id)).symm) hl.symm hp.flip hf.symm h
    exact ⟨_, h1⟩

/-- C49: the program laid out otherwise. If its nodes carry the same hints where they are now, the output is the former output
laid out otherwise, and the report is the same up to the positions. -/
theorem C49_moved {cx cx' : Ctx} {fuel : Nat} {path : String} {sm : Option SourceMap} {p q : Node} {c : SourceCoverage}
    (f : Span → Span) (h0 : f Span.dummy = Span.dummy) (hh0 : cx.hint Span.dummy = cx'.hint Span.dummy)
    (hh : ∀ m ∈ p.each, cx.hint m.span = cx'.hint (f m.span)) (hi : cx.ignoreMethods = cx'.ignoreMethods)
    (hl : cx.reportLogic = cx'.reportLogic)
    (hf : Hint.shouldIgnoreFile cx.cc cx.comments p.span = Hint.shouldIgnoreFile cx'.cc cx'.comments (f p.span))
    (h : instrument cx fuel path sm p = .ok (q, c)) :
    ∃ c', instrument cx' fuel path sm (p.move f) = .ok (q.move f, c') ∧
      AkinReports .none (fun r r' => ∃ sp, r = cx.range sp ∧ r' = cx'.range (f sp)) false c.inner c'.inner := by
  obtain ⟨q', c', h1, h2, h3⟩ := C49_alike (d := .moved f p) (cx' := cx') (p' := p.move f) ⟨h0.symm, .inl rfl⟩ (by
    rintro a b ⟨rfl, rfl | ⟨m, hm, rfl⟩⟩
    · rw [h0]; exact hh0
    · exact hh m hm) (by
    rintro x y (rfl | h)
    · rw [hi]
    · exact h.elim) hl (.move fun m hm => ⟨rfl, .inr ⟨m, hm, rfl⟩⟩) (by
    have : (p.move f).span = f p.span := by cases p; rfl
    rw [this]
    exact hf) h
  have hq : q' = q.move f := Akin.move_eq (d := .moved f p) (fun a b h => h.1) (fun _ _ h => h) id h2
  subst hq
  refine ⟨c', h1, ?_⟩
  have hR : ∀ r r', (Change.moved f p).ranges cx cx' r r' → ∃ sp, r = cx.range sp ∧ r' = cx'.range (f sp) := by
    rintro r r' ⟨a, b, ⟨rfl, -⟩, h1, h2⟩
    exact ⟨a, h1, h2⟩
  exact ⟨h3.all, h3.path, h3.inputSourceMap, h3.s, h3.f, h3.b, h3.bT, h3.statementMap.imp fun _ _ h => ⟨h.1, hR _ _ h.2⟩,
    h3.fnMap.imp fun _ _ h => ⟨h.1, h.2.1, hR _ _ h.2.2.1, hR _ _ h.2.2.2.1, h.2.2.2.2⟩,
    h3.branchMap.imp fun _ _ h => ⟨h.1, h.2.1, (by
      obtain ⟨r, r', g1, g2, g3, g4⟩ := h.2.2.1
      exact ⟨r, r', g1, g2, hR _ _ g3, g4⟩), h.2.2.2.imp hR⟩⟩

theorem SameHints.findSome {cc : CharClasses} (hs : cc.Sane) {l l' : List (List Char)} (h : SameHints cc l l') :
    l.findSome? (Hint.captureHint cc) = l'.findSome? (Hint.captureHint cc) := by
  induction h with
  | nil => rfl
  | both text h ih => rw [List.findSome?_cons, List.findSome?_cons, ih]
  | left hn h ih =>
    rw [List.findSome?_cons, (C27_comment_is_no_hint_iff cc hs _).2 fun s h => hn (.inl ⟨s, h⟩)]
    exact ih
  | right hn h ih =>
    rw [List.findSome?_cons, (C27_comment_is_no_hint_iff cc hs _).2 fun s h => hn (.inl ⟨s, h⟩)]
    exact ih

theorem isFileHint_iff {cc : CharClasses} (hs : cc.Sane) (text : List Char) :
    Hint.isFileHint cc text = true ↔ ReadsAs cc "file".toList text := by
  have h := C27_file_hint_iff cc hs ⟨fun _ => [text], fun _ => []⟩ ⟨0, 0⟩
  simpa [Hint.shouldIgnoreFile] using h

theorem SameHints.anyFile {cc : CharClasses} (hs : cc.Sane) {l l' : List (List Char)} (h : SameHints cc l l') :
    l.any (Hint.isFileHint cc) = l'.any (Hint.isFileHint cc) := by
  have no : ∀ text, ¬ IsHint cc text → Hint.isFileHint cc text = false := by
    intro text hn
    rw [Bool.eq_false_iff, ne_eq, isFileHint_iff hs]
    exact fun h => hn (.inr h)
  induction h with
  | nil => rfl
  | both text h ih => rw [List.any_cons, List.any_cons, ih]
  | left hn h ih => rw [List.any_cons, no _ hn, ih]; rfl
  | right hn h ih => rw [List.any_cons, no _ hn, ih]; rfl

/-- C49: comments that are no hints do not matter. With the same hints at every position, in the same order, a program has the
same output and the same report. -/
theorem C49_comments {cx : Ctx} (hs : cx.cc.Sane) {comments : Comments} {fuel : Nat} {path : String} {sm : Option SourceMap}
    {p : Node} (h1 : ∀ pos, SameHints cx.cc (cx.comments.leading pos) (comments.leading pos))
    (h2 : ∀ pos, SameHints cx.cc (cx.comments.trailing pos) (comments.trailing pos)) (r : Node × SourceCoverage) :
    instrument cx fuel path sm p = .ok r ↔ instrument { cx with comments := comments } fuel path sm p = .ok r := by
  have hh : ∀ sp, cx.hint sp = ({ cx with comments := comments } : Ctx).hint sp := by
    intro sp
    unfold Ctx.hint Hint.shouldIgnore Hint.lookup
    dsimp only
    rw [(h1 sp.hi).findSome hs, (h1 sp.lo).findSome hs]
  have hf : Hint.shouldIgnoreFile cx.cc cx.comments p.span = Hint.shouldIgnoreFile cx.cc comments p.span := by
    unfold Hint.shouldIgnoreFile
    simp only [List.any_cons, List.any_nil]
    rw [(h1 p.span.hi).anyFile hs, (h1 p.span.lo).anyFile hs, (h2 p.span.hi).anyFile hs, (h2 p.span.lo).anyFile hs]
  have go : ∀ {cx cx' : Ctx}, (∀ sp, cx.hint sp = cx'.hint sp) → (∀ sp, cx.range sp = cx'.range sp) →
      cx.ignoreMethods = cx'.ignoreMethods → cx.reportLogic = cx'.reportLogic →
      Hint.shouldIgnoreFile cx.cc cx.comments p.span = Hint.shouldIgnoreFile cx'.cc cx'.comments p.span →
      ∀ r, instrument cx fuel path sm p = .ok r → instrument cx' fuel path sm p = .ok r := by
    rintro cx cx' hh hr hi hl hf ⟨q, c⟩ h
    have hin : (Lock.make Change.none false cx cx' rfl (fun h => by cases h; exact hh _)
        (fun h => by rcases h with rfl | h; exacts [by rw [hi], h.elim]) (fun _ => hl) (fun h => by cases h)).In p p :=
      ⟨.refl fun _ _ => rfl, fun h => by cases h⟩
    obtain ⟨q', c', h1, h2, h3⟩ := Lock.instrument hin hf h
    have hq : q = q' := Akin.eq (fun _ _ h => h) (fun _ _ h => h) id h2
    have hc := h3.inner.eq (fun _ _ h => h) (by rintro r r' ⟨a, b, rfl, rfl, rfl⟩; exact hr a)
    rw [← h3.inner.bT rfl] at hc
    have : c = c' := by
      obtain ⟨i, a, b, d⟩ := c
      obtain ⟨i', a', b', d'⟩ := c'
      cases h3.lastS
      cases h3.lastF
      cases h3.lastB
      dsimp only at hc
      rw [hc]
    rw [h1, hq, this]
  exact ⟨go hh (fun _ => rfl) rfl rfl hf r, go (fun sp => (hh sp).symm) (fun _ => rfl) rfl rfl hf.symm r⟩

/-! ### Cases -/

/-- `f(a, function g() { return 1 })`. -/
def laidOut : Node := Build.module [expr 2 (call 3 (ident 4 "f") [ident 5 "a", mk .fnExpr (at' 6) [ident 7 "g", function 6 [] (block 8
  [mk .returnStmt (at' 9) [num 10 "1"]])]])]

/-- Ten lines down: the function is reported ten lines down, and everything else is the same. -/
example : ∃ c c', (∃ q, run plain laidOut = .ok (q, c) ∧
      run plain (laidOut.move fun sp => if sp = Span.dummy then sp else ⟨sp.lo + 10, sp.hi + 10⟩) =
        .ok (q.move fun sp => if sp = Span.dummy then sp else ⟨sp.lo + 10, sp.hi + 10⟩, c')) ∧
    c.inner.fnMap.map (·.2.line) = [8] ∧ c'.inner.fnMap.map (·.2.line) = [18] ∧ c.inner.s = c'.inner.s := by
  have h1 : yields (run plain laidOut) (fun _ c => c.fnMap.map (·.2.line) == [8]) = true := by decide +kernel
  have h2 : yields (run plain (laidOut.move fun sp => if sp = Span.dummy then sp else ⟨sp.lo + 10, sp.hi + 10⟩))
    (fun _ c => c.fnMap.map (·.2.line) == [18]) = true := by decide +kernel
  obtain ⟨q, c, e1, g1⟩ := of_yields h1
  obtain ⟨q', c', e2, g2⟩ := of_yields h2
  obtain ⟨c'', e3, g3⟩ := C49_moved (cx' := plain) (fun sp => if sp = Span.dummy then sp else ⟨sp.lo + 10, sp.hi + 10⟩) (if_pos rfl) rfl
    (fun _ _ => rfl) rfl rfl rfl e1
  have e4 := Except.ok.inj (e2.symm.trans e3)
  cases e4
  exact ⟨c, c', ⟨q, e1, e3⟩, eq_of_beq g1, eq_of_beq g2, g3.s⟩

/-- The names of functions may change with the names of variables and parameters, and the function may become `async`. -/
example : ∃ d : Change, d.names "g" "h" ∧ Akin d false laidOut (Build.module [expr 2 (call 3 (ident 4 "f") [ident 5 "a",
    mk .fnExpr (at' 6) [ident 7 "h", mk (.function "async") (at' 6) [mk .list Span.dummy [], mk .list Span.dummy [],
      block 8 [mk .returnStmt (at' 9) [num 10 "25"]]]]])]) :=
  ⟨⟨Eq, fun x y => x = "g" ∧ y = "h", True⟩, .inr ⟨rfl, rfl⟩,
    .node (.refl _) rfl (.cons (.node (.refl _) rfl (.cons (.node (.refl _) rfl (.cons (.node (.refl _) rfl .nil)
      (.cons (.node (.refl _) rfl (.cons (.node (.refl _) rfl .nil) (.cons (.node (.refl _) rfl (.cons (.node (.ident ⟨rfl, rfl⟩) rfl .nil)
        (.cons (.node (.function trivial _ _) rfl (.cons (.node (.refl _) rfl .nil) (.cons (.node (.refl _) rfl .nil) (.cons (.node (.refl _) rfl (.cons
          (.node (.refl _) rfl (.cons (.node (.other trivial _ _ _) rfl .nil) .nil)) .nil)) .nil)))) .nil))) .nil))) .nil))) .nil)) .nil)⟩

/-- A comment that is none of the hints. -/
example : SameHints asciiClasses ["istanbul ignore nexto".toList, "istanbul ignore next".toList] ["istanbul ignore next".toList] := by
  have h : Hint.captureHint asciiClasses "istanbul ignore nexto".toList = none ∧
      Hint.isFileHint asciiClasses "istanbul ignore nexto".toList = false := by decide +kernel
  refine .left ?_ (.both _ .nil)
  rintro (⟨s, h1⟩ | h1)
  · exact (C27_comment_is_no_hint_iff _ asciiClasses_sane _).1 h.1 s h1
  · rw [← isFileHint_iff asciiClasses_sane, h.2] at h1
    cases h1

end Verif
