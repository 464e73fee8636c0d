import Verif.Lemmas.Layout
import Verif.Props.Plugin
/-
C59: reports and options are read however their JSON is laid out.
-/
namespace Verif
open Json Layout

namespace Layout

/-- Members with the names that are asked for. -/
theorem once_congr {fs gs : List (String × Data)} {k : String}
    (h : fs.filter (fun e => e.1 = k) = gs.filter (fun e => e.1 = k)) (d : Data) : Once fs k d → Once gs k d := by
  intro ho
  rw [once_iff] at ho ⊢
  have key : ∀ l : List (String × Data), Serde.member l k = Serde.member (l.filter fun e => e.1 = k) k := by
    intro l
    unfold Serde.member
    induction l with
    | nil => rfl
    | cons e l ih =>
      obtain ⟨k', d'⟩ := e
      by_cases hk : k' = k
      · rw [List.filter_cons_of_pos (by simpa using hk), IndexMap.get, IndexMap.get, if_pos hk, if_pos hk]
      · rw [List.filter_cons_of_neg (by simpa using hk), IndexMap.get, if_neg hk, ih]
  refine ⟨?_, ?_⟩
  · unfold AtMost at ho ⊢; rw [← h]; exact ho.1
  · rw [key, ← h, ← key]; exact ho.2

theorem field_congr {V : Type} {P : Data → V → Prop} {fs gs : List (String × Data)} {k : String} {v : V}
    (h : fs.filter (fun e => e.1 = k) = gs.filter (fun e => e.1 = k)) : Field P fs k v → Field P gs k v :=
  fun ⟨d, h1, h2⟩ => ⟨d, once_congr h d h1, h2⟩

theorem fieldOr_congr {V : Type} {dflt : V} {P : Data → V → Prop} {fs gs : List (String × Data)} {k : String} {v : V}
    (h : fs.filter (fun e => e.1 = k) = gs.filter (fun e => e.1 = k)) : FieldOr dflt P fs k v → FieldOr dflt P gs k v := by
  rintro (h' | ⟨h1, h2⟩)
  · exact .inl (field_congr h h')
  · exact .inr ⟨absent_filter.2 (by rw [← h]; exact absent_filter.1 h1), h2⟩

/-- The names of the members of a report (file_coverage.rs:127-143). -/
def reportNames : List String :=
  ["all", "path", "statementMap", "fnMap", "branchMap", "s", "f", "b", "bT", "inputSourceMap"]

/-- Lower case hexadecimal digits. -/
def lowHex : List Char := "0123456789abcdef".toList

/-- How a character is written in a string: with a short escape if it has one, control characters with their code, other
characters as they are. -/
def spelling (c : Char) : List Char :=
  match (shortEscapes.filter fun x => x.1 ≠ '/').find? fun x => x.1 = c with
  | some x => ['\\', x.2]
  | none => if c.toNat < 32 then "\\u00".toList ++ [lowHex.getD (c.toNat / 16) '?', lowHex.getD (c.toNat % 16) '?'] else [c]

theorem escapeChar_spelling (c : Char) : escapeChar c = spelling c := by
  by_cases hc : c.toNat < 128
  · have key : ∀ n, n < 128 → escapeChar (Char.ofNat n) = spelling (Char.ofNat n) := by decide +kernel
    have := key _ hc
    rwa [Char.ofNat_toNat] at this
  · have ne : ∀ d : Char, d.toNat < 128 → c ≠ d := fun d hd e => hc (e ▸ hd)
    have ne' : ∀ d : Char, d.toNat < 128 → ¬ d = c := fun d hd e => ne d hd e.symm
    have h1 : escapeChar c = [c] := by
      unfold escapeChar
      rw [if_neg (ne _ (by decide)), if_neg (ne _ (by decide)), if_neg (ne _ (by decide)), if_neg (ne _ (by decide)),
        if_neg (ne _ (by decide)), if_neg (ne _ (by decide)), if_neg (ne _ (by decide)), if_neg (by omega)]
    have h2 : ((shortEscapes.filter fun x => x.1 ≠ '/').find? fun x => x.1 = c) = none := by
      rw [List.find?_eq_none]
      intro x hx
      have key : ∀ x ∈ shortEscapes.filter fun x => x.1 ≠ '/', x.1.toNat < 128 := by decide
      simpa using ne' _ (key x hx)
    rw [h1, spelling, h2]
    show _ = if _ then _ else _
    rw [if_neg (by omega)]

theorem escaped_spelling (l : List Char) : escaped l = l.flatMap spelling := by
  induction l with
  | nil => rfl
  | cons c l ih => rw [escaped, ih, escapeChar_spelling, List.flatMap_cons]

theorem printItems_intercalate (l : List Data) : printItems l = [','].intercalate (l.map print) := by
  have more : ∀ l : List Data, ∀ d, print d ++ printMoreItems l = [','].intercalate ((d :: l).map print) := by
    intro l
    induction l with
    | nil => intro d; simp [printMoreItems, List.intercalate]
    | cons e l ih =>
      intro d
      rw [printMoreItems, List.cons_append, ih e]
      simp [List.intercalate, List.intersperse]
  cases l with
  | nil => rfl
  | cons d l => rw [printItems, more]

theorem printFields_intercalate (fs : List (String × Data)) :
    printFields fs = [','].intercalate (fs.map fun e => quoted e.1 ++ ':' :: print e.2) := by
  have more : ∀ (fs : List (String × Data)) k d, quoted k ++ ':' :: print d ++ printMoreFields fs =
      [','].intercalate (((k, d) :: fs).map fun e => quoted e.1 ++ ':' :: print e.2) := by
    intro fs
    induction fs with
    | nil => intro k d; simp [printMoreFields, List.intercalate]
    | cons e fs ih =>
      obtain ⟨k', d'⟩ := e
      intro k d
      rw [printMoreFields]
      simp only [List.cons_append] at ih ⊢
      rw [ih k' d']
      simp [List.intercalate, List.intersperse]
  cases fs with
  | nil => rfl
  | cons e fs => obtain ⟨k, d⟩ := e; rw [printFields, more]

end Layout

/-- C59. The texts that are read are the texts of the JSON grammar, with arrays and objects nested at most 127 deep, and the
value is the one they stand for. -/
theorem C59_texts (text : String) (d : Data) : Json.parse text = some d ↔ IsText text d := parse_iff text d

/-- C59. The grammar is not ambiguous. -/
theorem C59_unique {text : String} {d d' : Data} (h : IsText text d) (h' : IsText text d') : d = d' :=
  Option.some.inj (((C59_texts _ _).2 h).symm.trans ((C59_texts _ _).2 h'))

/-- C59. A report is loaded from the JSON texts of an object with its members, in any order and with any white space. -/
theorem C59_reports (text : String) (c : FileCoverage) :
    Serde.load text = some c ↔ ∃ d, IsText text d ∧ IsCoverage d c := by
  unfold Serde.load
  rw [Option.bind_eq_some_iff]
  constructor
  · rintro ⟨d, h1, h2⟩; exact ⟨d, (C59_texts _ _).1 h1, (agrees_coverage _ _).1 h2⟩
  · rintro ⟨d, h1, h2⟩; exact ⟨d, (C59_texts _ _).2 h1, (agrees_coverage _ _).2 h2⟩

/-- C59. The options of the plugin are those of the JSON text; the default options if the text is no JSON text or its value
does not stand for options. -/
theorem C59_options (text : String) (o : Plugin.Options) : Plugin.options (some text) = o ↔
    (∃ d, IsText text d ∧ IsOptions d o) ∨ ((¬ ∃ d o', IsText text d ∧ IsOptions d o') ∧ o = Plugin.Options.default) := by
  have key : ∀ o, Plugin.Options.parse text = some o ↔ ∃ d, IsText text d ∧ IsOptions d o := by
    intro o
    unfold Plugin.Options.parse
    rw [Option.bind_eq_some_iff]
    constructor
    · rintro ⟨d, h1, h2⟩; exact ⟨d, (C59_texts _ _).1 h1, (agrees_options _ _).1 h2⟩
    · rintro ⟨d, h1, h2⟩; exact ⟨d, (C59_texts _ _).2 h1, (agrees_options _ _).2 h2⟩
  show (Plugin.Options.parse text).getD .default = o ↔ _
  cases hp : Plugin.Options.parse text with
  | none =>
    have hn : ¬ ∃ d o', IsText text d ∧ IsOptions d o' := by
      rintro ⟨d, o', h⟩
      rw [(key o').2 ⟨d, h⟩] at hp; cases hp
    constructor
    · intro h; exact .inr ⟨hn, h.symm⟩
    · rintro (⟨d, h⟩ | ⟨-, h⟩)
      · exact absurd ⟨d, o, h⟩ hn
      · exact h.symm
  | some o' =>
    have h' := (key o').1 hp
    constructor
    · intro h
      have h : o' = o := h
      exact .inl (h ▸ h')
    · rintro (h | ⟨h, -⟩)
      · rw [(key o).2 h] at hp
        exact (Option.some.inj hp).symm
      · obtain ⟨d, h'⟩ := h'
        exact absurd ⟨d, o', h'⟩ h

/-- C59. What stands for a report only depends on the members with the names of its fields: not on their order, nor on other
members. -/
theorem C59_members {fs gs : List (String × Data)} (c : FileCoverage)
    (h : ∀ k ∈ reportNames, fs.filter (fun e => e.1 = k) = gs.filter (fun e => e.1 = k)) :
    IsCoverage (.obj fs) c → IsCoverage (.obj gs) c := by
  rintro ⟨fs', he, h1, h2, h3, h4, h5, h6, h7, h8, h9, h10⟩
  cases he
  exact ⟨gs, rfl, fieldOr_congr (h _ (by decide)) h1, field_congr (h _ (by decide)) h2, field_congr (h _ (by decide)) h3,
    field_congr (h _ (by decide)) h4, field_congr (h _ (by decide)) h5, field_congr (h _ (by decide)) h6,
    field_congr (h _ (by decide)) h7, field_congr (h _ (by decide)) h8, fieldOr_congr (h _ (by decide)) h9,
    fieldOr_congr (h _ (by decide)) h10⟩

/-- C59. What is printed: no white space, commas between elements and members, strings with the escapes of `spelling`. -/
theorem C59_printed :
    (∀ n, Json.text (.num n) = toString n) ∧ (∀ s : String, (Json.text (.str s)).toList = '"' :: (s.toList.flatMap spelling ++ ['"'])) ∧
    (∀ l, (Json.text (.arr l)).toList = '[' :: ([','].intercalate (l.map fun d => (Json.text d).toList) ++ [']'])) ∧
    ∀ fs : List (String × Data), (Json.text (.obj fs)).toList = '{' :: ([','].intercalate (fs.map fun e =>
      (Json.text (.str e.1)).toList ++ ':' :: (Json.text e.2).toList) ++ ['}']) := by
  have hq : ∀ s : String, print (.str s) = quoted s := fun s => by rw [print]
  refine ⟨fun n => ?_, fun s => ?_, fun l => ?_, fun fs => ?_⟩
  · rw [Json.text, print, Nat.toString_eq_ofList_toDigits]
  · rw [Json.text, String.toList_ofList, hq, quoted, escaped_spelling]; rfl
  · simp only [Json.text, String.toList_ofList]
    rw [print, printItems_intercalate]
    rfl
  · simp only [Json.text, String.toList_ofList, hq]
    rw [print, printFields_intercalate]
    rfl

/-- A report with white space, its members in another order, a member that nobody knows and a table with a key twice. -/
def spacedReport : String :=
  "\n{ \"s\": {\"0\": 7, \"1\": 0, \"0\": 8}, \"b\" : { } , \"f\":{},\t\"_hash\": [1.5e3, -2, [null]],\r\n \"path\": \"\\u002Ff.js\"," ++
  "\"statementMap\": {}, \"fnMap\": {}, \"branchMap\": {\"10\": {\"type\": \"if\", \"locations\": []}}} "

/-- The report of `spacedReport`. -/
def spacedCoverage : FileCoverage :=
  { all := false, path := "/f.js", statementMap := [], fnMap := [], branchMap := [(10, ⟨none, .if, [], none⟩)],
    s := [(0, 8), (1, 0)], f := [], b := [], bT := none, inputSourceMap := none }

example : ∃ d, IsText spacedReport d ∧ IsCoverage d spacedCoverage := (C59_reports _ _).1 (by decide +kernel)

/-- Texts that are no JSON texts. -/
example : ∀ text ∈ ["1.", "01", "+1", "1e", "[1,]", "{\"a\" 1}", "\"\\x\"", "\"\\uDC00\"", "nul", "[", "1 2"], ¬ ∃ d, IsText text d := by
  intro text ht
  have key : ∀ text ∈ ["1.", "01", "+1", "1e", "[1,]", "{\"a\" 1}", "\"\\x\"", "\"\\uDC00\"", "nul", "[", "1 2"],
      (Json.parse text).isNone = true := by decide +kernel
  rintro ⟨d, hd⟩
  have := key text ht
  rw [(C59_texts _ _).2 hd] at this
  cases this

/-- Control characters, quotes and backslashes are escaped, slashes and other characters are not. -/
example : Json.text (.str "/\"\\\n\x1f\x7fé") = "\"/\\\"\\\\\\n\\u001f\x7fé\"" := by decide +kernel

end Verif
