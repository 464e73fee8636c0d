import Verif.Lemmas.LockstepProgram
/-
Programs of the same form.
-/
namespace Verif
open Node

namespace Akin
variable {d : Change} {t : Bool}

theorem refl : ∀ {n : Node}, (∀ m ∈ n.each, d.span m.span m.span) → Akin d t n n := by
  intro n
  induction n using Node.ind with
  | h k sp cs ih =>
    intro h
    refine .node (.refl _) (h _ (each_self _)) ?_
    have h1 : ∀ c ∈ cs, Akin d t c c := fun c hc => ih c hc fun m hm => h m (mem_each_mk.2 (.inr ⟨c, hc, hm⟩))
    clear h ih
    induction cs with
    | nil => exact .nil
    | cons c cs ih2 => exact .cons (h1 c (by simp)) (ih2 fun c hc => h1 c (by simp [hc]))

/-- Trees that do not differ are equal. -/
theorem eq (hs : ∀ a b, d.span a b → a = b) (hn : ∀ x y, ¬ d.name x y) (ht : ¬ d.texts) :
    ∀ {a b : Node}, Akin d false a b → a = b := by
  intro a
  induction a using Node.ind with
  | h k sp cs ih =>
    intro b h
    obtain ⟨k', sp', cs', rfl, hk, h1, hc⟩ := h.mk_inv
    cases hs _ _ h1
    have : k = k' := by
      cases hk with
      | refl => rfl
      | ident hx => exact absurd hx (hn _ _)
      | prop hx => exact absurd hx (hn _ _)
      | str hx => exact absurd hx ht
      | other hx => exact absurd hx ht
      | op hx => exact absurd hx ht
      | assign hx => exact absurd hx ht
      | arrow hx => exact absurd hx ht
      | function hx => exact absurd hx ht
      | var hx => exact absurd hx ht
    subst this
    have : cs = cs' := by
      clear h
      induction hc with
      | nil => rfl
      | cons h1 h2 ih2 => rw [ih _ (by simp) h1, ih2 fun c hc => ih c (by simp [hc])]
    subst this
    rfl

end Akin

/-- The reverse of a change. -/
def Change.flip (d : Change) : Change := ⟨fun a b => d.span b a, fun a b => d.name b a, d.texts⟩

theorem Akin.flip {d : Change} : ∀ {a b : Node}, Akin d false a b → Akin d.flip false b a := by
  intro a
  induction a using Node.ind with
  | h k sp cs ih =>
    intro b h
    obtain ⟨k', sp', cs', rfl, hk, h1, hc⟩ := h.mk_inv
    refine .node ?_ h1 ?_
    · cases hk with
      | refl => exact .refl _
      | ident hx => exact .ident hx
      | prop hx => exact .prop hx
      | str hx h' => exact .str (d := d.flip) hx h'.symm
      | other hx => exact .other (d := d.flip) hx _ _ _
      | op hx => exact .op (d := d.flip) hx _ _
      | assign hx => exact .assign (d := d.flip) hx _ _
      | arrow hx => exact .arrow (d := d.flip) hx _ _
      | function hx => exact .function (d := d.flip) hx _ _
      | var hx h' => exact .var (d := d.flip) hx h'.symm
    · clear h
      induction hc with
      | nil => exact .nil
      | cons h1 h2 ih2 => exact .cons (ih _ (by simp) h1) (ih2 fun c hc => ih c (by simp [hc]))

theorem forall₂_eq {α : Type} {Q : α → α → Prop} (h : ∀ x y, Q x y → x = y) {l l' : List α} (hl : List.Forall₂ Q l l') : l = l' := by
  induction hl with
  | nil => rfl
  | cons h1 h2 ih => rw [h _ _ h1, ih]

/-- Reports that differ in truthiness counts only. -/
theorem AkinReports.eq {d : Change} {R : Range → Range → Prop} {t : Bool} {c c' : FileCoverage} (hn : ∀ x y, ¬ d.name x y)
    (hR : ∀ r r', R r r' → r = r') (h : AkinReports d R t c c') : c' = { c with bT := c'.bT } := by
  have h1 : c.statementMap = c'.statementMap := forall₂_eq (by
    rintro ⟨k, r⟩ ⟨k', r'⟩ ⟨h1, h2⟩
    cases h1
    cases hR _ _ h2
    rfl) h.statementMap
  have h2 : c.fnMap = c'.fnMap := forall₂_eq (by
    rintro ⟨k, f⟩ ⟨k', f'⟩ ⟨h1, h2, h3, h4, h5, h6⟩
    obtain ⟨a, b, c, l⟩ := f
    obtain ⟨a', b', c', l'⟩ := f'
    dsimp only at h1 h2 h3 h4 h5 h6
    cases hR _ _ h3
    cases hR _ _ h4
    rw [h1, h5, h6, h2.resolve_right (hn _ _)]) h.fnMap
  have h3 : c.branchMap = c'.branchMap := forall₂_eq (by
    rintro ⟨k, f⟩ ⟨k', f'⟩ ⟨h1, h2, ⟨r, r', h3, h4, h5, h6, h7⟩, h8⟩
    obtain ⟨a, b, c, l⟩ := f
    obtain ⟨a', b', c', l'⟩ := f'
    dsimp only at h1 h2 h3 h4 h5 h6 h7 h8
    cases hR _ _ h5
    rw [h1, h2, h3, h4, h6, h7, forall₂_eq hR h8]) h.branchMap
  obtain ⟨⟩ := c
  obtain ⟨⟩ := c'
  cases h.all
  cases h.path
  cases h.inputSourceMap
  cases h.s
  cases h.f
  cases h.b
  cases h1
  cases h2
  cases h3
  rfl

/-- The spans that a program may contain before and after instrumentation, moved by `f`. -/
def Change.moved (f : Span → Span) (p : Node) : Change :=
  ⟨fun a b => b = f a ∧ (a = Span.dummy ∨ ∃ m ∈ p.each, a = m.span), fun _ _ => False, False⟩

theorem Akin.move_eq {d : Change} {f : Span → Span} (hs : ∀ a b, d.span a b → b = f a) (hn : ∀ x y, ¬ d.name x y) (ht : ¬ d.texts) :
    ∀ {a b : Node}, Akin d false a b → b = a.move f := by
  intro a
  induction a using Node.ind with
  | h k sp cs ih =>
    intro b h
    obtain ⟨k', sp', cs', rfl, hk, h1, hc⟩ := h.mk_inv
    cases hs _ _ h1
    have : k = k' := by
      cases hk with
      | refl => rfl
      | ident hx => exact absurd hx (hn _ _)
      | prop hx => exact absurd hx (hn _ _)
      | str hx => exact absurd hx ht
      | other hx => exact absurd hx ht
      | op hx => exact absurd hx ht
      | assign hx => exact absurd hx ht
      | arrow hx => exact absurd hx ht
      | function hx => exact absurd hx ht
      | var hx => exact absurd hx ht
    subst this
    have : cs' = moveList f cs := by
      clear h
      induction hc with
      | nil => rfl
      | cons h1 h2 ih2 => rw [moveList, ih _ (by simp) h1, ih2 fun c hc => ih c (by simp [hc])]
    rw [move, this]

theorem Akin.move {d : Change} {f : Span → Span} : ∀ {n : Node}, (∀ m ∈ n.each, d.span m.span (f m.span)) → Akin d false n (n.move f) := by
  intro n
  induction n using Node.ind with
  | h k sp cs ih =>
    intro h
    rw [Node.move]
    refine .node (.refl _) (h _ (each_self _)) ?_
    have h1 : ∀ c ∈ cs, Akin d false c (c.move f) := fun c hc => ih c hc fun m hm => h m (mem_each_mk.2 (.inr ⟨c, hc, hm⟩))
    clear h ih
    induction cs with
    | nil => exact .nil
    | cons c cs ih2 => exact .cons (h1 c (by simp)) (ih2 fun c hc => h1 c (by simp [hc]))

end Verif
