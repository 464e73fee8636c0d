import Verif.Model.Emit
import Verif.Lemmas.Serde
import Verif.Model.SourceCoverage
import Verif.Props.Runtime
/-
C41: coverage data survives being saved and loaded. C42: the hash stands for the data.

`Keyed` (no table has a key twice) and `Fits` (numbers are below `2 ^ 32`) hold of all coverage data there is, by
the types in /repo; `C41_loaded` shows them for all data that was loaded.
-/
namespace Verif
open Serde Template

/-- C41. Saving coverage data as JSON text and loading the text gives the same coverage data. -/
theorem C41_lossless {c : FileCoverage} (hk : c.Keyed) (hf : c.Fits) : load (save c) = some c :=
  load_save hk hf

/-- C41. Whatever text is loaded, the tables have no key twice and the numbers are 32 bit numbers. -/
theorem C41_loaded {text : String} {c : FileCoverage} (h : load text = some c) : c.Keyed ∧ c.Fits := by
  obtain ⟨d, _, h⟩ := Option.bind_eq_some_iff.1 h
  exact coverage_some h

/-- C41. Loaded data can be saved and loaded again without change. -/
theorem C41_again {text : String} {c : FileCoverage} (h : load text = some c) : load (save c) = some c :=
  C41_lossless (C41_loaded h).1 (C41_loaded h).2

/-- C41. However the characters of a string are written, as they are or with any of the escapes of JSON, the string is
read as it was. -/
theorem C41_escapes {s : String} {w : List Char} (h : Json.SpelledAll s.toList w) :
    Json.parse (String.ofList ('"' :: w ++ ['"'])) = some (.str s) := Json.parse_spelled h

/-- A character outside of the basic plane as a surrogate pair, a slash with a backslash, a letter by its code. -/
example : Json.parse "\"\\uD83d\\uDE00\\/\\u0061b\"" = some (.str "😀/ab") :=
  C41_escapes (w := "\\uD83d\\uDE00\\/\\u0061b".toList)
    (.cons (.pair (hi := 0x3d) (lo := 0x200)
        ⟨'D', '8', '3', 'd', 13, 8, 3, 13, rfl, by decide, by decide, by decide, by decide, rfl⟩
        ⟨'D', 'E', '0', '0', 13, 14, 0, 0, rfl, by decide, by decide, by decide, by decide, rfl⟩
        (by decide) (by decide) rfl)
      (.cons (.short (e := '/') (by decide))
        (.cons (.code ⟨'0', '0', '6', '1', 0, 0, 6, 1, rfl, by decide, by decide, by decide, by decide, rfl⟩)
          (.cons (.plain (by decide) (by decide) (by decide)) .nil))))

/-- C42. Different data are hashed from different texts. -/
theorem C42_text {a b : FileCoverage} (ha : a.Keyed) (ha' : a.Fits) (hb : b.Keyed) (hb' : b.Fits)
    (h : save a = save b) : a = b := by
  have h1 := C41_lossless ha ha'
  rw [h, C41_lossless hb hb'] at h1
  injection h1 with h1
  exact h1.symm

/-- The hash tells the two texts apart. -/
def Told (a b : String) : Prop := a ≠ b → SipHash.hash a ≠ SipHash.hash b

/-- C42. The emitted hashes of two data sets are equal if and only if the data are, up to collisions of the hash
function. -/
theorem C42_hash {a b : FileCoverage} (ha : a.Keyed) (ha' : a.Fits) (hb : b.Keyed) (hb' : b.Fits)
    (ht : Told (save a) (save b)) : dataHash a = dataHash b ↔ a = b := by
  constructor
  · intro h
    have h1 : SipHash.hash (save a) = SipHash.hash (save b) := Js.toString_inj h
    exact C42_text ha ha' hb hb' (Classical.byContradiction fun hne => ht hne h1)
  · rintro rfl; rfl

open Runtime Js in
/-- C42 with C30. After any history, loading a file again keeps its counts if its data are the data that the
entry of its path was made from, and otherwise installs the new data. -/
theorem C42_reload_partial (w : World) {gcv : String} {st : State} (hp : Pristine gcv st) (es : List Event)
    {i j : Input} (hi : i.hash = dataHash i.data) (hj : j.hash = dataHash j.data)
    (ha : Books.empty.AllowsAll gcv (es ++ [.load j]))
    (hik : i.data.Keyed) (hif : i.data.Fits) (hjf : j.data.Fits) (ht : Told (save i.data) (save j.data))
    {st1 : State} {insts1 : List Instance} (h1 : play w [] es st = .ok (st1, insts1))
    {c : FileCoverage} (hr : Reports gcv st1 j.path i c) :
    ∃ st2 insts2, playOne w insts1 (.load j) st1 = .ok (st2, insts2) ∧
      ((i.data = j.data ∧ Reports gcv st2 j.path i c) ∨ (i.data ≠ j.data ∧ Reports gcv st2 j.path j j.data)) := by
  have hjk : j.data.Keyed := by
    have := (allows_append.1 ha).2
    exact this.1.keyed
  have hh := C42_hash hik hif hjk hjf ht
  by_cases he : i.data = j.data
  · obtain ⟨st2, insts2, h2, h3⟩ := C30_reload_keeps_partial w hp es j ha h1 hr (by rw [hi, hj, he])
    exact ⟨st2, insts2, h2, .inl ⟨he, h3⟩⟩
  · obtain ⟨st2, insts2, h2, h3⟩ := C30_changed_resets_partial w hp es j ha h1 fun k c' hk => by
      rw [(reports_det hk hr).2.2, hi, hj]
      exact fun h => he (hh.1 h)
    exact ⟨st2, insts2, h2, .inr ⟨he, h3⟩⟩

/-! ### Concrete cases -/

/-- Data of every sort, with characters that are escaped. -/
def everySort : FileCoverage where
  all := true
  path := "/a \"b\"\\c\n.js"
  statementMap := [(1, ⟨⟨1, 0⟩, ⟨2, 3⟩⟩), (0, ⟨⟨4, 5⟩, ⟨6, 70⟩⟩)]
  fnMap := [(0, ⟨"f\u0001é", ⟨⟨1, 0⟩, ⟨2, 3⟩⟩, ⟨⟨1, 0⟩, ⟨2, 3⟩⟩, 4⟩)]
  branchMap := [(0, ⟨none, .if, [⟨⟨1, 0⟩, ⟨2, 3⟩⟩], none⟩), (1, ⟨some ⟨⟨1, 0⟩, ⟨2, 3⟩⟩, .condExpr, [], some 3⟩)]
  s := [(1, 4294967295), (0, 0)]
  f := [(0, 12)]
  b := [(0, [3]), (1, [])]
  bT := some [(0, [1])]
  inputSourceMap := some ⟨3, none, some "", ["a", "b"], some [none, some "x"], [], "AAAA"⟩

/-- A text that parses, with unknown members, other order, white space and escapes. -/
example : load "{\"s\": {\"0\": 1}, \"path\": \"a\\u002ejs\", \"hash\": \"1\", \"statementMap\": {\"0\":
    {\"start\":{\"line\":1,\"column\":0,\"x\":-1.5e3},\"end\":{\"line\":1,\"column\":9}}},
    \"fnMap\":{}, \"f\" : {}, \"branchMap\":{},\"b\":{}}" =
    some { FileCoverage.empty "a.js" false with
      statementMap := [(0, ⟨⟨1, 0⟩, ⟨1, 9⟩⟩)], s := [(0, 1)] } := by decide +kernel

theorem everySort_fits : everySort.Keyed ∧ everySort.Fits := by
  refine ⟨⟨by decide, by decide, by decide, by decide, by decide, by decide, fun m hm => ?_⟩, ⟨?_, ?_, ?_, ?_, ?_, ?_, ?_, ?_⟩⟩
  · cases hm; decide
  all_goals simp [everySort, IndexMap.Fits, Range.Fits, Location.Fits, Function.Fits, Branch.Fits]

example : load (save everySort) = some everySort := C41_lossless everySort_fits.1 everySort_fits.2

/-- A repeated member, a missing one, a count that is no 32 bit number. -/
example : load "{\"path\":\"a\",\"path\":\"a\",\"statementMap\":{},\"fnMap\":{},\"branchMap\":{},\"s\":{},\"f\":{},\"b\":{}}"
    = none ∧ load "{\"path\":\"a\",\"fnMap\":{},\"branchMap\":{},\"s\":{},\"f\":{},\"b\":{}}" = none ∧
    load "{\"path\":\"a\",\"statementMap\":{},\"fnMap\":{},\"branchMap\":{},\"s\":{\"0\":4294967296},\"f\":{},\"b\":{}}"
      = none := by decide +kernel

/-- Two versions of a file: a statement on the given line. -/
def edition (line : Nat) : FileCoverage :=
  { FileCoverage.empty "a.js" false with statementMap := [(0, ⟨⟨line, 0⟩, ⟨line, 5⟩⟩)], s := [(0, 0)] }

theorem edition_keyed (line : Nat) : (edition line).Keyed :=
  ⟨by simp [edition, IndexMap.NodupKeys, IndexMap.keys], .nil, .nil,
    by simp [edition, IndexMap.NodupKeys, IndexMap.keys], .nil, .nil, fun m hm => by cases hm⟩

theorem edition_fits {line : Nat} (h : line < 2 ^ 32) : (edition line).Fits := by
  refine ⟨?_, ?_, ?_, ?_, ?_, ?_, ?_, ?_⟩ <;>
    simp [edition, IndexMap.Fits, Range.Fits, Location.Fits, FileCoverage.empty, h]

/-- The hashes of the two versions differ. -/
theorem edition_told : Told (save (edition 1)) (save (edition 2)) := fun _ => by
  rw [hash_save, hash_save]
  decide +kernel

open Runtime Js in
/-- After a hit in the first version, the second version starts with fresh data. -/
example : ∃ st1 insts1 st2 insts2,
    play noWorld [] [.load (emit "cov_1" "__coverage__" "a.js" (edition 1)), .hit 0 (.s 0)] freshRealm
      = .ok (st1, insts1) ∧
    Reports "__coverage__" st1 "a.js" (emit "cov_1" "__coverage__" "a.js" (edition 1))
      { edition 1 with s := [(0, 1)] } ∧
    playOne noWorld insts1 (.load (emit "cov_1" "__coverage__" "a.js" (edition 2))) st1 = .ok (st2, insts2) ∧
    Reports "__coverage__" st2 "a.js" (emit "cov_1" "__coverage__" "a.js" (edition 2)) (edition 2) := by
  have key : ∀ m a b, a = dataHash (edition 1) → b = dataHash (edition 2) → ∃ st1 insts1 st2 insts2,
      play noWorld [] [.load ⟨"cov_1", "__coverage__", "a.js", m, a, edition 1⟩, .hit 0 (.s 0)] freshRealm
        = .ok (st1, insts1) ∧
      Reports "__coverage__" st1 "a.js" ⟨"cov_1", "__coverage__", "a.js", m, a, edition 1⟩
        { edition 1 with s := [(0, 1)] } ∧
      playOne noWorld insts1 (.load ⟨"cov_1", "__coverage__", "a.js", m, b, edition 2⟩) st1 = .ok (st2, insts2) ∧
      Reports "__coverage__" st2 "a.js" ⟨"cov_1", "__coverage__", "a.js", m, b, edition 2⟩ (edition 2) := by
    intro m a b h1 h2
    have hp : ∀ n h, Proper "__coverage__" ⟨"cov_1", "__coverage__", "a.js", m, h, edition n⟩ := fun n h =>
      ⟨rfl, by simp, by simp, edition_keyed n⟩
    have ha : Books.empty.AllowsAll "__coverage__"
        [.load ⟨"cov_1", "__coverage__", "a.js", m, a, edition 1⟩, .hit 0 (.s 0)] :=
      ⟨hp 1 a, ⟨0, rfl, _, rfl, rfl⟩, trivial⟩
    obtain ⟨st1, insts1, h3, _, h5, _⟩ := C30_books_partial noWorld freshRealm_pristine _ ha
    have hr := h5 "a.js" ⟨"cov_1", "__coverage__", "a.js", m, a, edition 1⟩ { edition 1 with s := [(0, 1)] } rfl
    obtain ⟨st2, insts2, h6, h7 | h7⟩ := C42_reload_partial
      (i := ⟨"cov_1", "__coverage__", "a.js", m, a, edition 1⟩) (j := ⟨"cov_1", "__coverage__", "a.js", m, b, edition 2⟩)
      noWorld freshRealm_pristine _ h1 h2 (allows_append.2 ⟨ha, hp 2 b, trivial⟩) (edition_keyed 1)
      (edition_fits (by decide)) (edition_fits (by decide)) edition_told h3 hr
    · exact absurd h7.1 (by simp [edition])
    · exact ⟨st1, insts1, st2, insts2, h3, hr, h6, h7.2⟩
  exact key magicValue (dataHash (edition 1)) (dataHash (edition 2)) rfl rfl

/-! ### Tests: the values expected by the unit tests in /repo (create_coverage_data_object.rs:478-940) -/

example : SipHash.hash "swc-coverage-instrument@0" = 11020577277169172593 := by decide +kernel
example : SipHash.hash "test-emotion.js" = 14220330533750098279 := by decide +kernel
example : dataHash (FileCoverage.empty "anon" false) = toString 2749072808032864045 :=
  dataHash_of (by decide +kernel)
example : dataHash { FileCoverage.empty "anon" false with all := true } = toString 9996448737459597674 :=
  dataHash_of (by decide +kernel)
example : dataHash (FileCoverage.empty "/test/src/file.js" true) = toString 5324777076056671972 :=
  dataHash_of (by decide +kernel)

/-- create_coverage_data_object.rs:558-647 -/
example :
    let c := ((SourceCoverage.new "/test/src/statement.js" false).newStatement (Range.mk4 2 3 5 2)).1
    let c' := (c.newStatement (Range.mk4 4 9 3 6)).1
    dataHash c.inner = toString 14358638674647738158 ∧ dataHash c'.inner = toString 8495704048820686839 :=
  ⟨dataHash_of (by decide +kernel), dataHash_of (by decide +kernel)⟩

/-- create_coverage_data_object.rs:649-787 -/
example :
    let c := ((SourceCoverage.new "/test/src/fn.js" false).newFunction (some "named_function") (Range.mk4 2 3 2 10)
      (Range.mk4 2 3 5 2)).1
    let c' := (c.newFunction none (Range.mk4 4 9 4 25) (Range.mk4 4 9 3 6)).1
    dataHash c.inner = toString 12684468276621003816 ∧ dataHash c'.inner = toString 8413193639409683826 :=
  ⟨dataHash_of (by decide +kernel), dataHash_of (by decide +kernel)⟩

/-- create_coverage_data_object.rs:789-862 -/
example :
    let c := ((SourceCoverage.new "/test/src/branch.js" false).newBranch .switch (Range.mk4 2 3 5 2) false).1
    let c' := (c.newBranch .binaryExpr (Range.mk4 6 4 2 8) true).1
    dataHash c.inner = toString 16290170317654300968 ∧ dataHash c'.inner = toString 394046461779423801 :=
  ⟨dataHash_of (by decide +kernel), dataHash_of (by decide +kernel)⟩

end Verif
