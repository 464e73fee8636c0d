import Verif.Spec.Comment
import Verif.Lemmas.Serde
/-
Searching in texts; what is in the text of coverage data.
-/
namespace Verif.Comment
open Json

theorem cut_append {pat l : List Char} (h : ¬ pat <:+: l) (hp : pat ≠ []) (rest : List Char)
    (hs : ∀ a b, a ≠ [] → b ≠ [] → pat = a ++ b → a <:+ l → ¬ b <+: pat ++ rest) :
    cut pat (l ++ pat ++ rest) = some (l, rest) := by
  induction l with
  | nil =>
    cases pat with
    | nil => exact absurd rfl hp
    | cons c pat =>
      have : (c :: pat).isPrefixOf (c :: (pat ++ rest)) = true := by
        rw [List.isPrefixOf_iff_prefix]
        exact ⟨rest, by simp⟩
      show (if (c :: pat).isPrefixOf (c :: (pat ++ rest)) then _ else _) = _
      rw [if_pos this]
      simp
  | cons x l ih =>
    have hn : pat.isPrefixOf (x :: (l ++ pat ++ rest)) = false := by
      rw [Bool.eq_false_iff]
      intro hx
      rw [List.isPrefixOf_iff_prefix] at hx
      obtain ⟨t, ht⟩ := hx
      rw [show x :: (l ++ pat ++ rest) = (x :: l) ++ (pat ++ rest) by simp] at ht
      rcases List.append_eq_append_iff.1 ht with ⟨a, h1, h2⟩ | ⟨b, h1, h2⟩
      · exact h (h1 ▸ ⟨[], a, by simp⟩)
      · by_cases hb : b = []
        · subst hb
          rw [List.append_nil] at h1
          exact h (h1 ▸ List.infix_rfl)
        · exact hs (x :: l) b (by simp) hb h1 List.suffix_rfl ⟨t, h2.symm⟩
    show (if pat.isPrefixOf (x :: (l ++ pat ++ rest)) then _ else (cut pat (l ++ pat ++ rest)).map fun r => (x :: r.1, r.2)) = _
    rw [hn, if_neg (by simp), ih (fun hi => h (hi.trans (List.suffix_cons x l).isInfix))]
    · rfl
    · intro a b ha hb hab hsuf
      exact hs a b ha hb hab (hsuf.trans (List.suffix_cons x l))

theorem cut_none {pat l : List Char} (h : ¬ pat <:+: l) : cut pat l = none := by
  induction l with
  | nil =>
    show (if pat = [] then _ else _) = _
    rw [if_neg]
    rintro rfl
    exact h List.infix_rfl
  | cons x l ih =>
    have hn : pat.isPrefixOf (x :: l) = false := by
      rw [Bool.eq_false_iff, ne_eq, List.isPrefixOf_iff_prefix]
      exact fun hx => h hx.isInfix
    show (if pat.isPrefixOf (x :: l) then _ else _) = _
    rw [hn, if_neg (by simp), ih (fun hi => h (hi.trans (List.suffix_cons x l).isInfix))]
    rfl

/-- What `cut` finds is the first occurrence. -/
theorem cut_some {pat l a b : List Char} (h : cut pat l = some (a, b)) : l = a ++ pat ++ b := by
  induction l generalizing a with
  | nil =>
    change (if pat = [] then some ([], []) else none) = _ at h
    split at h
    · next hp => cases h; subst hp; rfl
    · cases h
  | cons x l ih =>
    change (if pat.isPrefixOf (x :: l) then some ([], (x :: l).drop pat.length) else _) = _ at h
    split at h
    · next hp =>
      cases h
      obtain ⟨t, ht⟩ := List.isPrefixOf_iff_prefix.1 hp
      rw [← ht]
      simp
    · obtain ⟨⟨a', b'⟩, h1, h2⟩ := Option.map_eq_some_iff.1 h
      cases h2
      rw [ih h1]
      rfl

theorem cut_first {pat l a b : List Char} (hp : pat ≠ []) (h : cut pat l = some (a, b)) : ¬ pat <:+: a := by
  induction l generalizing a with
  | nil =>
    change (if pat = [] then some ([], []) else none) = _ at h
    rw [if_neg hp] at h
    cases h
  | cons x l ih =>
    change (if pat.isPrefixOf (x :: l) then some ([], (x :: l).drop pat.length) else _) = _ at h
    split at h
    · cases h
      rw [List.infix_nil]
      exact hp
    · next hn =>
      obtain ⟨⟨a', b'⟩, h1, h2⟩ := Option.map_eq_some_iff.1 h
      cases h2
      have hl := cut_some h1
      intro hi
      rcases List.infix_cons_iff.1 hi with hi | hi
      · refine hn (List.isPrefixOf_iff_prefix.2 ?_)
        rw [hl]
        obtain ⟨t, ht⟩ := hi
        exact ⟨t ++ pat ++ b', by rw [← List.append_assoc, ← List.append_assoc, ht]; simp⟩
      · exact ih h1 hi

/-- The two characters of the end of a comment do not overlap with themselves. -/
theorem close_split (a b : List Char) (ha : a ≠ []) (hb : b ≠ []) (h : close = a ++ b) : a = ['*'] ∧ b = ['/'] := by
  cases a with
  | nil => exact absurd rfl ha
  | cons x a =>
    cases a with
    | nil => simp only [close, List.cons_append, List.nil_append, List.cons.injEq] at h; exact ⟨by rw [← h.1], h.2.symm⟩
    | cons y a =>
      simp only [close, List.cons_append, List.cons.injEq] at h
      obtain ⟨-, -, h⟩ := h
      have := (List.append_eq_nil_iff.1 h.symm).2
      exact absurd this hb

theorem cut_close {l : List Char} (h : ¬ close <:+: l) (rest : List Char) : cut close (l ++ close ++ rest) = some (l, rest) := by
  refine cut_append h (by decide) rest fun a b ha hb hab _ hp => ?_
  obtain ⟨-, rfl⟩ := close_split a b ha hb hab
  obtain ⟨t, ht⟩ := hp
  simp [close] at ht

/-! ### Lines -/

theorem lines_append (l r : List Char) (h : '\n' ∉ l) : lines (l ++ r) = (l ++ (lines r).1, (lines r).2) := by
  induction l with
  | nil => rfl
  | cons c l ih =>
    rw [List.mem_cons, not_or] at h
    show (if c = '\n' then _ else (c :: (lines (l ++ r)).1, (lines (l ++ r)).2)) = _
    rw [if_neg (fun e => h.1 e.symm), ih h.2]
    rfl

/-- All lines. -/
def allLines (l : List Char) : List (List Char) := (lines l).1 :: (lines l).2

theorem allLines_nl (l : List Char) : allLines ('\n' :: l) = [] :: allLines l := rfl

theorem allLines_cons {c : Char} (h : c ≠ '\n') (l : List Char) :
    allLines (c :: l) = (c :: (lines l).1) :: (lines l).2 := by
  unfold allLines
  rw [lines]
  simp [h]

theorem lines_prefix (l : List Char) : (lines l).1 <+: l := by
  induction l with
  | nil => exact List.prefix_rfl
  | cons c l ih =>
    rw [lines]
    split
    · exact List.nil_prefix
    · exact (List.prefix_cons_inj c).2 ih

theorem lines_infix (l : List Char) : ∀ x ∈ (lines l).2, x <:+: l := by
  induction l with
  | nil => simp [lines]
  | cons c l ih =>
    have hs : l <:+: c :: l := (List.suffix_cons _ _).isInfix
    rw [lines]
    split
    · intro x hx
      rcases List.mem_cons.1 hx with rfl | hx
      · exact (lines_prefix l).isInfix.trans hs
      · exact (ih x hx).trans hs
    · exact fun x hx => (ih x hx).trans hs

theorem allLines_infix {l x : List Char} (h : x ∈ allLines l) : x <:+: l := by
  rcases List.mem_cons.1 h with rfl | h
  · exact (lines_prefix l).isInfix
  · exact lines_infix l x h

/-- More text goes on in the last line. -/
theorem allLines_append (l r : List Char) : ∃ ls last, allLines l = ls ++ [last] ∧
    allLines (l ++ r) = ls ++ (last ++ (lines r).1) :: (lines r).2 := by
  induction l with
  | nil => exact ⟨[], [], rfl, rfl⟩
  | cons c l ih =>
    obtain ⟨ls, last, h1, h2⟩ := ih
    by_cases hc : c = '\n'
    · subst hc
      refine ⟨[] :: ls, last, ?_, ?_⟩
      · rw [allLines_nl, h1]; rfl
      · rw [List.cons_append, allLines_nl, h2]; rfl
    · rw [List.cons_append, allLines_cons hc, allLines_cons hc]
      cases ls with
      | nil =>
        simp only [List.nil_append, allLines, List.cons.injEq] at h1 h2
        refine ⟨[], c :: last, ?_, ?_⟩
        · rw [h1.1, h1.2]; rfl
        · rw [h2.1, h2.2]; rfl
      | cons a ls =>
        simp only [List.cons_append, allLines, List.cons.injEq] at h1 h2
        refine ⟨(c :: a) :: ls, last, ?_, ?_⟩
        · rw [h1.1, h1.2]; rfl
        · rw [h2.1, h2.2]; rfl

/-! ### What is in the text of data -/

mutual
/-- All strings of the data, names of members too, are of a kind, and there are no numbers but natural ones. -/
def Spells (S : String → Prop) : Data → Prop
  | .str s => S s
  | .arr l => SpellsItems S l
  | .obj fs => SpellsFields S fs
  | .real _ => False
  | _ => True

/-- `Spells` for elements. -/
def SpellsItems (S : String → Prop) : List Data → Prop
  | [] => True
  | d :: l => Spells S d ∧ SpellsItems S l

/-- `Spells` for members. -/
def SpellsFields (S : String → Prop) : List (String × Data) → Prop
  | [] => True
  | (k, d) :: l => S k ∧ Spells S d ∧ SpellsFields S l
end

/-- Kinds of texts that are closed under appending, hold of the characters of JSON outside of strings, and of strings of a kind. -/
structure Closed (Q : List Char → Prop) (S : String → Prop) : Prop where
  nil : Q []
  app : ∀ {a b}, Q a → Q b → Q (a ++ b)
  char : ∀ {c}, c ∈ ['n', 'u', 'l', 't', 'r', 'e', 'f', 'a', 's', ',', ':', '[', ']', '{', '}'] ∨ c.isDigit = true → Q [c]
  str : ∀ {s}, S s → Q (quoted s)

namespace Closed
variable {Q : List Char → Prop} {S : String → Prop}

theorem cons (q : Closed Q S) {c : Char} {l : List Char}
    (h : c ∈ ['n', 'u', 'l', 't', 'r', 'e', 'f', 'a', 's', ',', ':', '[', ']', '{', '}'] ∨ c.isDigit = true) (hl : Q l) :
    Q (c :: l) := q.app (q.char h) hl

theorem all (q : Closed Q S) {l : List Char}
    (h : ∀ c ∈ l, c ∈ ['n', 'u', 'l', 't', 'r', 'e', 'f', 'a', 's', ',', ':', '[', ']', '{', '}'] ∨ c.isDigit = true) : Q l := by
  induction l with
  | nil => exact q.nil
  | cons c l ih => exact q.cons (h c List.mem_cons_self) (ih fun d hd => h d (List.mem_cons_of_mem _ hd))

mutual
theorem print (q : Closed Q S) : ∀ d : Data, Spells S d → Q (Json.print d)
  | .null, _ => q.all (by decide)
  | .bool true, _ => q.all (by decide)
  | .bool false, _ => q.all (by decide)
  | .num n, _ => q.all fun c hc => .inr (Nat.isDigit_of_mem_toDigits (by omega) (by omega) hc)
  | .str s, h => q.str h
  | .arr [], _ => q.all (by decide)
  | .arr (d :: l), h => q.app (q.cons (by decide) (q.app (q.print d h.1) (q.items l h.2))) (q.char (by decide))
  | .obj [], _ => q.all (by decide)
  | .obj ((k, d) :: l), h => q.app (q.cons (by decide)
      (q.app (q.app (q.str h.1) (q.cons (by decide) (q.print d h.2.1))) (q.fields l h.2.2))) (q.char (by decide))

theorem items (q : Closed Q S) : ∀ l : List Data, SpellsItems S l → Q (printMoreItems l)
  | [], _ => q.nil
  | d :: l, h => q.cons (by decide) (q.app (q.print d h.1) (q.items l h.2))

theorem fields (q : Closed Q S) : ∀ l : List (String × Data), SpellsFields S l → Q (printMoreFields l)
  | [], _ => q.nil
  | (k, d) :: l, h => q.cons (by decide)
      (q.app (q.app (q.str h.1) (q.cons (by decide) (q.print d h.2.1))) (q.fields l h.2.2))
end

end Closed

/-! ### The end of a comment -/

/-- Whether the text ends with a star; nothing if it has the end of a comment. `s`: there is a star before it. -/
def scan (s : Bool) : List Char → Option Bool
  | [] => some s
  | c :: l => if s && c == '/' then none else scan (c == '*') l

theorem scan_append (s : Bool) (a b : List Char) : scan s (a ++ b) = (scan s a).bind fun t => scan t b := by
  induction a generalizing s with
  | nil => rfl
  | cons c a ih =>
    simp only [List.cons_append, scan]
    split
    · rfl
    · exact ih _

theorem scan_none (s : Bool) (l : List Char) : scan s l = none ↔ close <:+: l ∨ (s = true ∧ ['/'] <+: l) := by
  induction l generalizing s with
  | nil => simp [scan, close]
  | cons c l ih =>
    have hs : close <:+: c :: l ↔ (c = '*' ∧ ['/'] <+: l) ∨ close <:+: l := by
      rw [List.infix_cons_iff]
      refine or_congr ?_ Iff.rfl
      show ['*', '/'] <+: c :: l ↔ _
      rw [List.cons_prefix_cons, eq_comm]
    have hp : ['/'] <+: c :: l ↔ c = '/' := by
      rw [List.cons_prefix_cons, eq_comm]
      exact and_iff_left List.nil_prefix
    rw [hs, hp, scan]
    cases s
    · simp only [Bool.false_and, Bool.false_eq_true, if_false, ih, false_and, or_false, beq_iff_eq]
      exact or_comm
    · by_cases hc : c = '/'
      · subst hc; simp
      · have : (true && c == '/') = false := by simp [hc]
        rw [this]
        simp only [Bool.false_eq_true, if_false, ih, beq_iff_eq, hc, and_false, or_false]
        exact or_comm

theorem escapeChar_cases (c : Char) : escapeChar c = [c] ∨ c = '"' ∨ c = '\\' ∨ c.toNat < 32 := by
  apply Classical.byContradiction
  intro hn
  rw [not_or, not_or, not_or] at hn
  have ne : ∀ d : Char, d.toNat < 32 → c ≠ d := fun d hd e => hn.2.2.2 (e ▸ hd)
  apply hn.1
  unfold escapeChar
  rw [if_neg hn.2.1, if_neg hn.2.2.1, if_neg (ne _ (by decide)), if_neg (ne _ (by decide)),
    if_neg (ne _ (by decide)), if_neg (ne _ (by decide)), if_neg (ne _ (by decide)), if_neg hn.2.2.2]

theorem scan_escapeChar (s : Bool) (c : Char) : scan s (escapeChar c) = scan s [c] := by
  by_cases h : escapeChar c = [c]
  · rw [h]
  · have hx : ∀ n, n < 32 → scan s (escapeChar (Char.ofNat n)) = some false := by
      have key : ∀ n, n < 32 → scan true (escapeChar (Char.ofNat n)) = some false ∧
          scan false (escapeChar (Char.ofNat n)) = some false := by decide
      intro n hn
      cases s
      · exact (key n hn).2
      · exact (key n hn).1
    have := (escapeChar_cases c).resolve_left h
    rcases this with rfl | rfl | h1
    · cases s <;> rfl
    · cases s <;> rfl
    · have h2 := hx c.toNat h1
      rw [Char.ofNat_toNat] at h2
      rw [h2, scan]
      have h3 : c ≠ '/' := fun e => absurd h1 (by rw [e]; decide)
      have h4 : c ≠ '*' := fun e => absurd h1 (by rw [e]; decide)
      simp [h3, h4, scan]

theorem scan_escaped (s : Bool) (l : List Char) : scan s (escaped l) = scan s l := by
  induction l generalizing s with
  | nil => rfl
  | cons c l ih =>
    rw [escaped, scan_append, scan_escapeChar, show c :: l = [c] ++ l from rfl, scan_append]
    simp only [ih]

theorem scan_quoted {s : String} (h : ¬ close <:+: s.toList) : scan false (quoted s) = some false := by
  unfold quoted
  show scan false (['"'] ++ (escaped s.toList ++ ['"'])) = _
  rw [scan_append]
  show scan false (escaped s.toList ++ ['"']) = _
  rw [scan_append, scan_escaped]
  cases hs : scan false s.toList with
  | none =>
    rw [scan_none] at hs
    simp at hs
    exact absurd hs h
  | some t => cases t <;> rfl

/-- Outside of strings there is neither a star nor a slash. -/
theorem closed_scan : Closed (fun l => scan false l = some false) fun s => ¬ close <:+: s.toList where
  nil := rfl
  app := by intro a b h1 h2; rw [scan_append, h1]; exact h2
  char := by
    intro c hc
    have h4 : c ≠ '*' := by
      rintro rfl
      revert hc; decide
    simp [scan, h4]
  str := scan_quoted

/-- No control characters. -/
theorem closed_printable : Closed (fun l => ∀ c ∈ l, 32 ≤ c.toNat) fun _ => True where
  nil := by simp
  app := by
    intro a b h1 h2 c hc
    rcases List.mem_append.1 hc with hc | hc
    · exact h1 c hc
    · exact h2 c hc
  char := by
    intro c hc d hd
    rw [List.mem_singleton] at hd
    subst hd
    rcases hc with hc | hc
    · revert d; decide
    · simp only [Char.isDigit, Bool.and_eq_true, decide_eq_true_eq] at hc
      have := hc.1
      have h2 : (48 : Nat) ≤ d.toNat := this
      omega
  str := by
    intro s _ c hc
    unfold quoted at hc
    have key : ∀ l : List Char, ∀ c ∈ escaped l, 32 ≤ c.toNat := by
      intro l
      induction l with
      | nil => simp [escaped]
      | cons x l ih =>
        intro c hc
        rw [escaped] at hc
        rcases List.mem_append.1 hc with hc | hc
        · have hx : ∀ n, n < 32 → ∀ c ∈ escapeChar (Char.ofNat n), 32 ≤ c.toNat := by decide
          rcases escapeChar_cases x with h | rfl | rfl | h
          · by_cases h' : x.toNat < 32
            · have := hx x.toNat h'
              rw [Char.ofNat_toNat] at this
              exact this c hc
            · rw [h, List.mem_singleton] at hc
              rw [hc]; omega
          · have : ∀ c ∈ escapeChar '"', 32 ≤ c.toNat := by decide
            exact this c hc
          · have : ∀ c ∈ escapeChar '\\', 32 ≤ c.toNat := by decide
            exact this c hc
          · have := hx x.toNat h
            rw [Char.ofNat_toNat] at this
            exact this c hc
        · exact ih c hc
    simp only [List.cons_append, List.mem_cons, List.mem_append, List.not_mem_nil, or_false] at hc
    rcases hc with rfl | hc | rfl
    · decide
    · exact key _ c hc
    · decide

/-! ### The tree of coverage data -/

section
variable {S : String → Prop}

theorem spells_items {A : Type} {g : A → Data} {l : List A} (h : ∀ a ∈ l, Spells S (g a)) : SpellsItems S (l.map g) := by
  induction l with
  | nil => trivial
  | cons a l ih => exact ⟨h a List.mem_cons_self, ih fun b hb => h b (List.mem_cons_of_mem _ hb)⟩

theorem spells_fields {fs : List (String × Data)} (h : ∀ e ∈ fs, S e.1 ∧ Spells S e.2) : SpellsFields S fs := by
  induction fs with
  | nil => trivial
  | cons e l ih =>
    obtain ⟨h1, h2⟩ := h e List.mem_cons_self
    exact ⟨h1, h2, ih fun b hb => h b (List.mem_cons_of_mem _ hb)⟩

theorem spells_map {V : Type} {g : V → Data} {m : IndexMap Nat V} (hn : ∀ n : Nat, S (toString n))
    (h : ∀ e ∈ m, Spells S (g e.2)) : Spells S (Serde.mapTree g m) := by
  refine spells_fields fun e he => ?_
  obtain ⟨a, ha, rfl⟩ := List.mem_map.1 he
  exact ⟨hn _, h a ha⟩

theorem spells_skipNone {V : Type} {k : String} {g : V → Data} {o : Option V} (hk : S k) (h : ∀ v, o = some v → Spells S (g v)) :
    ∀ e ∈ Serde.skipNone k g o, S e.1 ∧ Spells S e.2 := by
  cases o with
  | none => simp [Serde.skipNone]
  | some v =>
    intro e he
    rw [Serde.skipNone, List.mem_singleton] at he
    rw [he]
    exact ⟨hk, h v rfl⟩

/-- The names of members in the tree of coverage data, and the types of branches. -/
def words : List String :=
  ["all", "path", "statementMap", "fnMap", "branchMap", "s", "f", "b", "bT", "inputSourceMap", "start", "end", "line", "column",
    "name", "decl", "loc", "type", "locations", "version", "file", "sourceRoot", "sources", "sourcesContent", "names", "mappings",
    "binary-expr", "default-arg", "if", "switch", "cond-expr"]

theorem spells_range (hw : ∀ w ∈ words, S w) (r : Range) : Spells S (Serde.rangeTree r) :=
  ⟨hw _ (by decide), ⟨hw _ (by decide), trivial, hw _ (by decide), trivial, trivial⟩,
    hw _ (by decide), ⟨hw _ (by decide), trivial, hw _ (by decide), trivial, trivial⟩, trivial⟩

theorem spells_coverage (hw : ∀ w ∈ words, S w) (hn : ∀ n : Nat, S (toString n)) {c : FileCoverage} (hc : ∀ s ∈ c.texts, S s) :
    Spells S (Serde.coverageTree c) := by
  have hopt : ∀ {V : Type} {g : V → Data} {o : Option V}, (∀ v, o = some v → Spells S (g v)) → Spells S (Serde.optTree g o) := by
    intro V g o h
    cases o with
    | none => trivial
    | some v => exact h v rfl
  have hnum : ∀ n, Spells S (.num n) := fun _ => trivial
  have hnums : ∀ l, Spells S (Serde.vecTree .num l) := fun l => spells_items (g := .num) fun _ _ => trivial
  have hstrs : ∀ l : List String, (∀ s ∈ l, S s) → Spells S (Serde.vecTree .str l) := fun l h => spells_items (g := .str) h
  refine spells_fields fun e he => ?_
  simp only [List.mem_append, List.mem_cons, List.not_mem_nil, or_false] at he
  rcases he with ((rfl | rfl | rfl | rfl | rfl | rfl | rfl | rfl) | he) | he
  · exact ⟨hw "all" (by decide), trivial⟩
  · exact ⟨hw "path" (by decide), hc _ (by simp [FileCoverage.texts])⟩
  · exact ⟨hw "statementMap" (by decide), spells_map hn fun e _ => spells_range hw _⟩
  · refine ⟨hw "fnMap" (by decide), spells_map hn fun e he => ?_⟩
    exact ⟨hw _ (by decide), hc _ (by
        rw [FileCoverage.texts]
        exact List.mem_append_left _ (List.mem_cons_of_mem _ (List.mem_map.2 ⟨e, he, rfl⟩))),
      hw _ (by decide), spells_range hw _, hw _ (by decide), spells_range hw _, hw _ (by decide), trivial, trivial⟩
  · refine ⟨hw "branchMap" (by decide), spells_map hn fun e _ => ?_⟩
    refine ⟨hw _ (by decide), hopt fun r _ => spells_range hw r, hw _ (by decide), ?_, hw _ (by decide),
      spells_items fun r _ => spells_range hw r, hw _ (by decide), hopt fun n _ => hnum n, trivial⟩
    cases e.2.branchType <;> exact hw _ (by decide)
  · exact ⟨hw "s" (by decide), spells_map hn fun _ _ => hnum _⟩
  · exact ⟨hw "f" (by decide), spells_map hn fun _ _ => hnum _⟩
  · exact ⟨hw "b" (by decide), spells_map hn fun _ _ => hnums _⟩
  · exact spells_skipNone (hw "bT" (by decide)) (fun _ _ => spells_map hn fun _ _ => hnums _) e he
  · refine spells_skipNone (hw "inputSourceMap" (by decide)) (fun m hm => ?_) e he
    have ht : ∀ s ∈ m.mappings :: m.sources ++ m.names ++ m.file.toList ++ m.sourceRoot.toList ++
        (m.sourcesContent.getD []).filterMap id, S s := by
      intro s hs
      refine hc s ?_
      rw [FileCoverage.texts, hm]
      exact List.mem_append_right _ hs
    simp only [List.mem_append, List.mem_cons] at ht
    have h1 : S m.mappings := ht _ (.inl (.inl (.inl (.inl (.inl rfl)))))
    have h2 : ∀ s ∈ m.sources, S s := fun s h => ht s (.inl (.inl (.inl (.inl (.inr h)))))
    have h3 : ∀ s ∈ m.names, S s := fun s h => ht s (.inl (.inl (.inl (.inr h))))
    have h4 : ∀ v, m.file = some v → S v := fun s h => ht s (.inl (.inl (.inr (Option.mem_toList.2 h))))
    have h5 : ∀ v, m.sourceRoot = some v → S v := fun s h => ht s (.inl (.inr (Option.mem_toList.2 h)))
    have h6 : ∀ l, m.sourcesContent = some l → ∀ o ∈ l, ∀ s, o = some s → S s := by
      intro l hl o ho s hs
      refine ht s (.inr ?_)
      rw [hl, Option.getD_some, List.mem_filterMap]
      exact ⟨o, ho, hs⟩
    clear ht
    refine spells_fields fun e he => ?_
    simp only [List.mem_append, List.mem_cons, List.not_mem_nil, or_false] at he
    rcases he with ((((rfl | he) | he) | rfl) | he) | rfl | rfl
    · exact ⟨hw "version" (by decide), hnum _⟩
    · exact spells_skipNone (g := .str) (hw "file" (by decide)) h4 e he
    · exact spells_skipNone (g := .str) (hw "sourceRoot" (by decide)) h5 e he
    · exact ⟨hw "sources" (by decide), hstrs _ h2⟩
    · exact spells_skipNone (g := Serde.vecTree (Serde.optTree .str)) (hw "sourcesContent" (by decide))
        (fun v hv => show SpellsItems S _ from spells_items fun o ho => hopt (g := .str) fun s hs => h6 v hv o ho s hs) e he
    · exact ⟨hw "names" (by decide), hstrs _ h3⟩
    · exact ⟨hw "mappings" (by decide), h1⟩

end

theorem save_toList (c : FileCoverage) : (Serde.save c).toList = Json.print (Serde.coverageTree c) := String.toList_ofList

theorem save_printable (c : FileCoverage) : ∀ x ∈ (Serde.save c).toList, 32 ≤ x.toNat := by
  rw [save_toList]
  exact closed_printable.print _ (spells_coverage (fun _ _ => trivial) (fun _ => trivial) (fun _ _ => trivial))

theorem digits_open (n : Nat) : ¬ close <:+: (toString n).toList := by
  intro h
  have h1 : '*' ∈ (toString n).toList := h.subset (by decide)
  rw [show (toString n).toList = Nat.toDigits 10 n from String.toList_ofList] at h1
  have := Nat.isDigit_of_mem_toDigits (by omega) (by omega) h1
  exact absurd this (by decide)

theorem words_open : ∀ w ∈ words, ¬ close <:+: w.toList := by
  have h : ∀ w ∈ words, scan false w.toList = some false := by decide +kernel
  intro w hw hc
  have := (scan_none false w.toList).2 (.inl hc)
  rw [h w hw] at this
  cases this

theorem save_open {c : FileCoverage} (h : ∀ s ∈ c.texts, ¬ close <:+: s.toList) : ¬ close <:+: (Serde.save c).toList := by
  have h1 := closed_scan.print _ (spells_coverage words_open digits_open h)
  rw [← save_toList] at h1
  intro h2
  have := (scan_none false _).2 (.inl h2)
  rw [this] at h1
  cases h1

/-! ### Reading the comment -/

/-- A pattern without the character between two texts is in one of them. -/
theorem infix_sep {pat l r : List Char} {x : Char} (hx : x ∉ pat) (h : pat <:+: l ++ x :: r) : pat <:+: l ∨ pat <:+: r := by
  obtain ⟨a, b, h⟩ := h
  rw [List.append_assoc] at h
  rcases List.append_eq_append_iff.1 h with ⟨c, h1, h2⟩ | ⟨c, h1, h2⟩
  · rcases List.append_eq_append_iff.1 h2 with ⟨d, h3, h4⟩ | ⟨d, h3, h4⟩
    · exact .inl ⟨a, d, by rw [h1, h3]; simp⟩
    · cases d with
      | nil =>
        rw [List.append_nil] at h3
        exact .inl ⟨a, [], by rw [h1, h3]; simp⟩
      | cons y d =>
        rw [List.cons_append, List.cons.injEq] at h4
        exact absurd (h3 ▸ h4.1 ▸ List.mem_append_right _ List.mem_cons_self) hx
  · cases c with
    | nil =>
      rw [List.nil_append] at h2
      cases pat with
      | nil => exact .inl List.nil_infix
      | cons y pat =>
        rw [List.cons_append, List.cons.injEq] at h2
        exact absurd (h2.1 ▸ List.mem_cons_self) hx
    | cons y c =>
      rw [List.cons_append, List.cons.injEq] at h2
      exact .inr ⟨c, b, by rw [h2.2]; simp⟩

theorem star_marker : '*' ∉ marker := by decide
theorem slash_marker : '/' ∉ marker := by decide

theorem marker_slash (a b : List Char) : marker ++ a ≠ '/' :: b := by
  intro h
  cases hm : marker with
  | nil => exact absurd hm (by decide)
  | cons c m =>
    rw [hm, List.cons_append, List.cons.injEq] at h
    exact slash_marker (by rw [hm, h.1]; exact List.mem_cons_self)

theorem cut_marker {l : List Char} (h : ¬ marker <:+: l) (rest : List Char) :
    cut marker (l ++ ['/', '*'] ++ marker ++ rest) = some (l ++ ['/', '*'], rest) := by
  refine cut_append ?_ (by decide) rest fun a b ha hb hab hs _ => ?_
  · intro hi
    rcases infix_sep slash_marker hi with hi | hi
    · exact h hi
    · exact star_marker (absurd (hi.subset (show '_' ∈ marker by decide)) (by decide))
  · obtain ⟨t, ht⟩ := hs
    have : '*' ∈ a := by
      have h1 : a.getLast? = some '*' := by
        have := congrArg List.getLast? ht
        rw [List.getLast?_append_of_ne_nil _ ha] at this
        rw [this]
        simp
      exact List.mem_of_getLast? h1
    exact star_marker (hab ▸ List.mem_append_left _ this)

/-- After the marker there is the data, the end of the comment and something else. -/
theorem second_marker {l t : List Char} (h : ¬ marker <:+: l) (ht : ¬ marker <:+: t) (rest : List Char) :
    ∃ r, second marker (l ++ ['/', '*'] ++ marker ++ (t ++ close ++ rest)) = some (t ++ close ++ r) := by
  unfold second
  rw [cut_marker h]
  simp only
  cases hc : cut marker (t ++ close ++ rest) with
  | none => exact ⟨rest, rfl⟩
  | some ab =>
    obtain ⟨a, b⟩ := ab
    have h1 := cut_some hc
    simp only
    suffices ∃ r, a = t ++ close ++ r by obtain ⟨r, rfl⟩ := this; exact ⟨r, rfl⟩
    have h1' : (t ++ ['*']) ++ ('/' :: rest) = a ++ (marker ++ b) := by
      rw [← List.append_assoc, ← h1]; simp [close]
    rcases List.append_eq_append_iff.1 h1' with ⟨c, h2, h3⟩ | ⟨c, h2, h3⟩
    · cases c with
      | nil =>
        exact absurd h3.symm (marker_slash b _)
      | cons y c =>
        rw [List.cons_append, List.cons.injEq] at h3
        exact ⟨c, by rw [h2, ← h3.1]; simp [close]⟩
    · exfalso
      have key : ∀ d, c = marker ++ d → False := by
        rintro d rfl
        have : marker <:+: t ++ '*' :: [] := ⟨a, d, by rw [show t ++ '*' :: [] = t ++ ['*'] from rfl, h2]; simp⟩
        rcases infix_sep star_marker this with h | h
        · exact ht h
        · exact absurd (h.subset (show '_' ∈ marker by decide)) (by simp)
      have hl : c = [] ∨ '*' ∈ c := by
        rcases List.eq_nil_or_concat c with rfl | ⟨c', x, rfl⟩
        · exact .inl rfl
        · right
          rw [List.concat_eq_append, ← List.append_assoc] at h2
          have := (List.append_inj' h2 rfl).2
          rw [List.concat_eq_append, ← this]
          simp
      rcases hl with rfl | hl
      · exact marker_slash _ _ h3
      · rcases List.append_eq_append_iff.1 h3 with ⟨d, h4, h5⟩ | ⟨d, h4, h5⟩
        · exact key d h4
        · exact star_marker (h4 ▸ List.mem_append_left _ hl)

theorem lastFileCoverage_reads {pre t : List Char} (hpre : ¬ marker <:+: pre) (ht : ¬ marker <:+: t) (hc : ¬ close <:+: t)
    (hn : '\n' ∉ t) (post : List Char) :
    lastFileCoverage (pre ++ ['/', '*'] ++ (marker ++ t) ++ close ++ post) = some t := by
  have hline : lines (['/', '*'] ++ (marker ++ t) ++ close ++ post) =
      (['/', '*'] ++ (marker ++ t) ++ close ++ (lines post).1, (lines post).2) := by
    refine lines_append _ _ ?_
    simp only [List.mem_append, not_or]
    exact ⟨⟨by decide, by decide, hn⟩, by decide⟩
  obtain ⟨ls, last, h1, h2⟩ := allLines_append pre (['/', '*'] ++ (marker ++ t) ++ close ++ post)
  have hall : ∀ x ∈ allLines pre, ¬ marker <:+: x := fun x hx hi => hpre (hi.trans (allLines_infix hx))
  rw [h1] at hall
  have hlast : ¬ marker <:+: last := hall last (by simp)
  have hls : ∀ x ∈ ls, ¬ marker <:+: x := fun x hx => hall x (by simp [hx])
  rw [hline] at h2
  unfold lastFileCoverage
  rw [show (pre ++ ['/', '*'] ++ (marker ++ t) ++ close ++ post) = pre ++ (['/', '*'] ++ (marker ++ t) ++ close ++ post) by simp]
  rw [show ∀ l, (lines l).1 :: (lines l).2 = allLines l from fun _ => rfl, h2]
  have hfind : (ls ++ (last ++ (['/', '*'] ++ (marker ++ t) ++ close ++ (lines post).1)) :: (lines post).2).find?
      (fun l => (cut marker l).isSome) = some (last ++ ['/', '*'] ++ marker ++ (t ++ close ++ (lines post).1)) := by
    rw [List.find?_append, List.find?_eq_none.2 (fun x hx => by rw [cut_none (hls x hx)]; simp), Option.none_or,
      show last ++ (['/', '*'] ++ (marker ++ t) ++ close ++ (lines post).1) =
        last ++ ['/', '*'] ++ marker ++ (t ++ close ++ (lines post).1) by simp, List.find?_cons_of_pos]
    rw [cut_marker hlast]
    rfl
  rw [hfind]
  obtain ⟨r, hr⟩ := second_marker hlast ht (lines post).1
  simp only [hr, cut_close hc]
  rfl

end Verif.Comment
