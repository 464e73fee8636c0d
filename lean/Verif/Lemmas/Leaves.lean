import Verif.Lemmas.Stringify
import Verif.Lemmas.Serde
import Verif.Lemmas.Books
/-
The coverage data that leaves the program: what `JSON.stringify` writes for a data object, and what is read from it.
-/
namespace Verif
open Js Template

/-- A table in the order in which properties are listed. -/
def IndexMap.arranged {V : Type} (m : IndexMap Nat V) : IndexMap Nat V := arrange (fun e => arrayIndex (toString e.1)) m

/-- All tables in the order in which properties are listed. -/
def FileCoverage.arranged (c : FileCoverage) : FileCoverage :=
  { c with
    statementMap := c.statementMap.arranged, fnMap := c.fnMap.arranged, branchMap := c.branchMap.arranged
    s := c.s.arranged, f := c.f.arranged, b := c.b.arranged, bT := c.bT.map IndexMap.arranged }

section
variable {V : Type} {m : IndexMap Nat V}

theorem IndexMap.arranged_perm : m.arranged.Perm m := arrange_perm _ m

theorem IndexMap.arranged_nodup (h : m.NodupKeys) : m.arranged.NodupKeys :=
  (arranged_perm.map Prod.fst).nodup_iff.2 h

theorem IndexMap.arranged_fits {P : V → Prop} (h : m.Fits P) : m.arranged.Fits P :=
  fun e he => h e (arranged_perm.mem_iff.1 he)

theorem IndexMap.arranged_same (h : m.NodupKeys) : m.arranged.Same m := by
  intro k
  cases e : m.get k with
  | none =>
    rw [get_eq_none_iff] at e ⊢
    exact fun hk => e ((arranged_perm.map Prod.fst).mem_iff.1 hk)
  | some v => exact get_of_mem (arranged_nodup h) (arranged_perm.mem_iff.2 (mem_of_get e))

theorem place_sorted {A : Type} (idx : A → Nat) (a : A) (l : List A) (h : l.Pairwise fun x y => idx x ≤ idx y) :
    (place idx a l).Pairwise fun x y => idx x ≤ idx y := by
  induction l with
  | nil => simp [place]
  | cons b l ih =>
    rw [List.pairwise_cons] at h
    unfold place
    split
    · next hab =>
      refine List.pairwise_cons.2 ⟨fun x hx => ?_, List.pairwise_cons.2 h⟩
      rcases List.mem_cons.1 hx with rfl | hx
      · exact hab
      · exact Nat.le_trans hab (h.1 x hx)
    · next hab =>
      refine List.pairwise_cons.2 ⟨fun x hx => ?_, ih h.2⟩
      rcases List.mem_cons.1 ((place_perm idx a l).mem_iff.1 hx) with rfl | hx
      · omega
      · exact h.1 x hx

theorem ascending_sorted {A : Type} (idx : A → Nat) (l : List A) :
    (ascending idx l).Pairwise fun x y => idx x ≤ idx y := by
  induction l with
  | nil => exact List.Pairwise.nil
  | cons a l ih => exact place_sorted idx a _ ih

theorem arrayIndex_toString (n : Nat) : arrayIndex (toString n) = if n < 2 ^ 32 - 1 then some n else none := by
  simp only [arrayIndex, Js.key_toString]

theorem IndexMap.arranged_ordered {P : V → Prop} (h : m.NodupKeys) (hf : m.Fits P) : m.arranged.Ordered := by
  have hle : m.arranged.Pairwise fun x y => x.1 ≤ y.1 := by
    unfold IndexMap.arranged arrange
    simp only [arrayIndex_toString]
    refine List.pairwise_append.2 ⟨?_, ?_, ?_⟩
    · refine (ascending_sorted _ _).imp_of_mem fun {x y} hx hy hxy => ?_
      have hx := (List.mem_filter.1 ((ascending_perm _ _).mem_iff.1 hx)).2
      have hy := (List.mem_filter.1 ((ascending_perm _ _).mem_iff.1 hy)).2
      split at hx
      · split at hy
        · next h1 h2 => simpa [h1, h2] using hxy
        · cases hy
      · cases hx
    · refine List.pairwise_iff_getElem.2 fun i j hi hj _ => ?_
      obtain ⟨hx1, hx2⟩ := List.mem_filter.1 (List.getElem_mem hi)
      obtain ⟨hy1, hy2⟩ := List.mem_filter.1 (List.getElem_mem hj)
      have hx3 := (hf _ hx1).1
      split at hy2
      · cases hy2
      · omega
    · intro x hx y hy
      have hx := (List.mem_filter.1 ((ascending_perm _ _).mem_iff.1 hx)).2
      have hy := (List.mem_filter.1 hy).2
      split at hx
      · split at hy
        · cases hy
        · omega
      · cases hx
  have hne : m.arranged.Pairwise fun x y => x.1 ≠ y.1 := List.pairwise_map.1 (arranged_nodup h)
  exact List.pairwise_map.2 ((hle.and hne).imp fun ⟨h1, h2⟩ => Nat.lt_of_le_of_ne h1 h2)

end

section
variable {c : FileCoverage}

theorem FileCoverage.arranged_ordered (h : c.Keyed) (hf : c.Fits) : c.arranged.Ordered := by
  refine ⟨IndexMap.arranged_ordered h.statementMap hf.statementMap, IndexMap.arranged_ordered h.fnMap hf.fnMap,
    IndexMap.arranged_ordered h.branchMap hf.branchMap, IndexMap.arranged_ordered h.s hf.s, IndexMap.arranged_ordered h.f hf.f,
    IndexMap.arranged_ordered h.b hf.b, fun m hm => ?_⟩
  obtain ⟨m', hm', rfl⟩ := Option.map_eq_some_iff.1 (Option.mem_def.1 hm)
  exact IndexMap.arranged_ordered (h.bT m' hm') (hf.bT m' hm')

theorem FileCoverage.arranged_keyed (h : c.Keyed) : c.arranged.Keyed := by
  refine ⟨IndexMap.arranged_nodup h.statementMap, IndexMap.arranged_nodup h.fnMap, IndexMap.arranged_nodup h.branchMap,
    IndexMap.arranged_nodup h.s, IndexMap.arranged_nodup h.f, IndexMap.arranged_nodup h.b, fun m hm => ?_⟩
  obtain ⟨m', hm', rfl⟩ := Option.map_eq_some_iff.1 (Option.mem_def.1 hm)
  exact IndexMap.arranged_nodup (h.bT m' hm')

theorem FileCoverage.arranged_fits (h : c.Fits) : c.arranged.Fits := by
  refine ⟨IndexMap.arranged_fits h.statementMap, IndexMap.arranged_fits h.fnMap, IndexMap.arranged_fits h.branchMap,
    IndexMap.arranged_fits h.s, IndexMap.arranged_fits h.f, IndexMap.arranged_fits h.b, fun m hm => ?_, h.inputSourceMap⟩
  obtain ⟨m', hm', rfl⟩ := Option.map_eq_some_iff.1 (Option.mem_def.1 hm)
  exact IndexMap.arranged_fits (h.bT m' hm')

theorem FileCoverage.arranged_same (h : c.Keyed) : c.arranged.Same c := by
  refine ⟨rfl, rfl, IndexMap.arranged_same h.statementMap, IndexMap.arranged_same h.fnMap,
    IndexMap.arranged_same h.branchMap, IndexMap.arranged_same h.s, IndexMap.arranged_same h.f,
    IndexMap.arranged_same h.b, ?_, rfl⟩
  have hb := h.bT
  show Option.Rel _ (c.bT.map IndexMap.arranged) c.bT
  cases e : c.bT with
  | none => exact .none
  | some m => exact .some (IndexMap.arranged_same (hb m e))

end

namespace Template

/-! ### Trees with the members in the order in which properties are listed -/

/-- The names of the members of the records. -/
def recordNames : List String :=
  ["line", "column", "start", "end", "name", "decl", "loc", "type", "locations", "version", "file", "sourceRoot",
   "sources", "sourcesContent", "names", "mappings"] ++ Runtime.fieldNames

theorem recordNames_index : ∀ k ∈ recordNames, arrayIndex k = none := by decide +kernel

theorem recordNames_hook : ∀ k ∈ recordNames, k ≠ "toJSON" := by decide +kernel

/-- A tree that is already in order. -/
def Settled (d : Data) : Prop := d.arranged = d ∧ d.lacks "toJSON" = true

theorem settled_obj {fs : List (String × Data)} (h : ∀ e ∈ fs, e.1 ∈ recordNames ∧ Settled e.2) : Settled (.obj fs) := by
  constructor
  · rw [Data.arranged, Data.arrangedFields_eq]
    have : (fs.map fun e => (e.1, e.2.arranged)) = fs := by
      conv_rhs => rw [← List.map_id fs]
      refine List.map_congr_left fun e he => ?_
      rw [(h e he).2.1]
      rfl
    rw [this]
    unfold listed
    rw [arrange_none fun e he => recordNames_index _ (h e he).1]
  · rw [Data.lacks]
    exact Data.lacksFields_iff.2 fun e he => ⟨recordNames_hook _ (h e he).1, (h e he).2.2⟩

theorem settled_arr {A : Type} {g : A → Data} {l : List A} (h : ∀ a, Settled (g a)) : Settled (.arr (l.map g)) := by
  constructor
  · rw [Data.arranged, Data.arrangedItems_eq, List.map_map]
    congr 1
    exact List.map_congr_left fun a _ => (h a).1
  · rw [Data.lacks]
    refine Data.lacksItems_iff.2 fun d hd => ?_
    obtain ⟨a, _, rfl⟩ := List.mem_map.1 hd
    exact (h a).2

theorem settled_num (n : Nat) : Settled (.num n) := ⟨rfl, rfl⟩
theorem settled_str (s : String) : Settled (.str s) := ⟨rfl, rfl⟩

theorem settled_range (r : Range) : Settled (rangeTree r) := by
  have hl : ∀ l : Location, Settled (.obj [("line", .num l.line), ("column", .num l.column)]) := fun l =>
    settled_obj (by
      simp only [List.mem_cons, List.not_mem_nil, or_false, forall_eq_or_imp, forall_eq]
      exact ⟨⟨by decide, settled_num _⟩, by decide, settled_num _⟩)
  refine settled_obj ?_
  simp only [List.mem_cons, List.not_mem_nil, or_false, forall_eq_or_imp, forall_eq]
  exact ⟨⟨by decide, hl _⟩, by decide, hl _⟩

theorem settled_fn (f : Function) : Settled (fnTree f) := by
  refine settled_obj ?_
  simp only [List.mem_cons, List.not_mem_nil, or_false, forall_eq_or_imp, forall_eq]
  exact ⟨⟨by decide, settled_str _⟩, ⟨by decide, settled_range _⟩, ⟨by decide, settled_range _⟩, by decide,
    settled_num _⟩

theorem settled_member {k : String} {d : Data} (hk : k ∈ recordNames) (hd : Settled d) :
    (k, d).1 ∈ recordNames ∧ Settled (k, d).2 := ⟨hk, hd⟩

theorem settled_branch (b : Branch) : Settled (branchTree b) := by
  obtain ⟨loc, t, ls, line⟩ := b
  refine settled_obj fun e he => ?_
  simp only [List.mem_append] at he
  rcases he with ((he | he) | he) | he
  · cases loc with
    | none => cases he
    | some r =>
      simp only [List.mem_singleton] at he
      subst he
      exact settled_member (by decide) (settled_range r)
  · simp only [List.mem_singleton] at he
    subst he
    exact settled_member (by decide) (settled_str _)
  · split at he
    · simp only [List.mem_singleton] at he
      subst he
      exact settled_member (by decide) (settled_arr settled_range)
    · cases he
  · cases line with
    | none => cases he
    | some n =>
      simp only [List.mem_singleton] at he
      subst he
      exact settled_member (by decide) (settled_num n)

theorem settled_counts (v : List Nat) : Settled (countsTree v) := settled_arr settled_num

theorem settled_sourceMap (m : SourceMap) : Settled (sourceMapTree m) := by
  obtain ⟨version, file, root, sources, contents, names, mappings⟩ := m
  refine settled_obj fun e he => ?_
  simp only [List.mem_append, List.mem_cons, List.not_mem_nil, or_false] at he
  rcases he with ((((rfl | he) | he) | rfl) | he) | rfl | rfl
  · exact settled_member (by decide) (settled_num _)
  · cases file with
    | none => cases he
    | some r =>
      simp only [List.mem_singleton] at he
      subst he
      exact settled_member (by decide) (settled_str _)
  · cases root with
    | none => cases he
    | some r =>
      simp only [List.mem_singleton] at he
      subst he
      exact settled_member (by decide) (settled_str _)
  · exact settled_member (by decide) (settled_arr settled_str)
  · cases contents with
    | none => cases he
    | some r =>
      simp only [List.mem_singleton] at he
      subst he
      exact settled_member (by decide) (settled_arr fun o => by cases o <;> exact ⟨rfl, rfl⟩)
  · exact settled_member (by decide) (settled_arr settled_str)
  · exact settled_member (by decide) (settled_str _)

theorem toString_ne_hook (n : Nat) : toString n ≠ "toJSON" := by
  intro e
  have : ∀ x ∈ (toString n).toList, x.isDigit = true := by
    intro x hx
    rw [Nat.toString_eq_repr, Nat.toList_repr] at hx
    exact Nat.isDigit_of_mem_toDigits (by decide) (by decide) hx
  rw [e] at this
  exact absurd (this 't' (by decide)) (by decide)

theorem arranged_table {V : Type} {g : V → Data} (h : ∀ v, Settled (g v)) (m : IndexMap Nat V) :
    (tableTree g m).arranged = tableTree g m.arranged ∧ (tableTree g m).lacks "toJSON" = true := by
  unfold tableTree
  constructor
  · rw [Data.arranged, Data.arrangedFields_eq, List.map_map]
    have : (m.map ((fun e : String × Data => (e.1, e.2.arranged)) ∘ fun e => (toString e.1, g e.2)))
        = m.map fun e => (toString e.1, g e.2) :=
      List.map_congr_left fun e _ => by simp only [Function.comp, (h e.2).1]
    rw [this]
    unfold listed IndexMap.arranged
    rw [arrange_map]
  · rw [Data.lacks]
    refine Data.lacksFields_iff.2 fun e he => ?_
    obtain ⟨x, _, rfl⟩ := List.mem_map.1 he
    exact ⟨toString_ne_hook _, (h x.2).2⟩

/-- The data object in order is the data object of the data in order. -/
theorem arranged_data (magic hash : String) (c : FileCoverage) :
    Data.arrangedFields (dataFields magic hash c) = dataFields magic hash c.arranged ∧
      Data.lacksFields "toJSON" (dataFields magic hash c) = true := by
  obtain ⟨all, path, sm, fm, bm, s, f, b, bT, ism⟩ := c
  have h1 := arranged_table settled_range sm
  have h2 := arranged_table settled_fn fm
  have h3 := arranged_table settled_branch bm
  have h4 := arranged_table settled_num s
  have h5 := arranged_table settled_num f
  have h6 := arranged_table settled_counts b
  have h7 := fun m => arranged_table settled_counts m
  have h8 := fun m => settled_sourceMap m
  constructor
  · cases bT <;> cases ism <;>
      simp only [dataFields, FileCoverage.arranged, List.cons_append, List.nil_append, Data.arrangedFields, h1.1, h2.1,
        h3.1, h4.1, h5.1, h6.1, (h7 _).1, (h8 _).1, Data.arranged, Option.map]
  · cases bT <;> cases ism <;>
      simp [dataFields, Data.lacksFields, h1.2, h2.2, h3.2, h4.2, h5.2, h6.2, (h7 _).2, (h8 _).2, Data.lacks, magicKey]

end Template

namespace Serde

/-! ### Reading the emitted data object -/

theorem branch_emitted {b : Branch} (h : b.Fits) (hl : b.locations ≠ []) :
    branch (Template.branchTree b) = some b := by
  obtain ⟨loc, t, ls, line⟩ := b
  have h1 := fun r hr => range_tree (h.1 r hr)
  have h2 : vec range (.arr (ls.map Template.rangeTree)) = some ls :=
    vec_tree range rangeTree ls fun r hr => range_tree (h.2.1 r hr)
  have h3 := fun n hn => u32_num (h.2.2 n hn)
  have hp : ls.length > 0 := List.length_pos_iff.2 hl
  have ht : branchType (.str t.toStr) = some t := by cases t <;> rfl
  have ho : ∀ r : Range, opt range (Template.rangeTree r) = (range (rangeTree r)).map some := fun _ => rfl
  have hn : ∀ n, opt u32 (.num n) = (u32 (.num n)).map some := fun _ => rfl
  simp only at h1 h3
  unfold Template.branchTree branch
  simp only [if_pos hp]
  cases loc <;> cases line <;>
    simp [struct, required, optional, withDefault, member, IndexMap.get, ht, h1, h2, h3, ho, hn]

theorem sourceMap_emitted (m : SourceMap) : Template.sourceMapTree m = sourceMapTree m := by
  obtain ⟨version, file, root, sources, contents, names, mappings⟩ := m
  have : contentTree = optTree .str := by
    funext o
    cases o <;> rfl
  unfold Template.sourceMapTree sourceMapTree
  rw [this]
  cases file <;> cases root <;> cases contents <;> rfl

/-- The names that are looked at. -/
def readNames : List String :=
  ["all", "path", "statementMap", "fnMap", "branchMap", "s", "f", "b", "bT", "inputSourceMap"]

/-- Only the members with known names are looked at. -/
theorem coverage_known {fs gs : List (String × Data)} (h : (fs.filter fun e => e.1 ∈ Runtime.fieldNames) = gs) :
    coverage (.obj fs) = coverage (.obj gs) := by
  have hm : ∀ k ∈ readNames, member fs k = member gs k := by
    intro k hk
    subst h
    have : k ∈ Runtime.fieldNames := (by decide : ∀ k ∈ readNames, k ∈ Runtime.fieldNames) k hk
    exact (IndexMap.get_filter (p := fun k => k ∈ Runtime.fieldNames) (by simpa using this)).symm
  have hc : ∀ k ∈ readNames, (fs.filter fun e => e.1 = k).length = (gs.filter fun e => e.1 = k).length := by
    intro k hk
    subst h
    have : k ∈ Runtime.fieldNames := (by decide : ∀ k ∈ readNames, k ∈ Runtime.fieldNames) k hk
    rw [List.filter_filter]
    congr 1
    refine List.filter_congr fun e _ => ?_
    by_cases he : e.1 = k <;> simp [he, this]
  have hs : (struct readNames (.obj fs) = some fs ∧ struct readNames (.obj gs) = some gs) ∨
      (struct readNames (.obj fs) = none ∧ struct readNames (.obj gs) = none) := by
    have : (readNames.all fun k => (fs.filter fun e => e.1 = k).length ≤ 1)
        = readNames.all fun k => (gs.filter fun e => e.1 = k).length ≤ 1 := by
      simp only [readNames, List.all_cons, List.all_nil]
      rw [hc "all" (by decide), hc "path" (by decide), hc "statementMap" (by decide), hc "fnMap" (by decide),
        hc "branchMap" (by decide), hc "s" (by decide), hc "f" (by decide), hc "b" (by decide), hc "bT" (by decide),
        hc "inputSourceMap" (by decide)]
    simp only [struct]
    rw [this]
    by_cases hcase : (readNames.all fun k => (gs.filter fun e => e.1 = k).length ≤ 1) = true
    · exact .inl ⟨by simp only [hcase, if_true], by simp only [hcase, if_true]⟩
    · exact .inr ⟨by simp only [hcase, if_false, Bool.false_eq_true], by simp only [hcase, if_false, Bool.false_eq_true]⟩
  have hr : ∀ {V : Type} (f : Data → Option V) (k : String), k ∈ readNames → required f fs k = required f gs k := by
    intro V f k hk
    unfold required
    rw [hm k hk]
  have hw : ∀ {V : Type} (v : V) (f : Data → Option V) (k : String), k ∈ readNames →
      withDefault v f fs k = withDefault v f gs k := by
    intro V v f k hk
    unfold withDefault
    rw [hm k hk]
  have ho : ∀ {V : Type} (f : Data → Option V) (k : String), k ∈ readNames → optional f fs k = optional f gs k := by
    intro V f k hk
    exact hw none (opt f) k hk
  unfold coverage
  change (struct readNames (.obj fs)).bind _ = (struct readNames (.obj gs)).bind _
  rcases hs with ⟨h1, h2⟩ | ⟨h1, h2⟩
  · rw [h1, h2, Option.bind_some, Option.bind_some]
    rw [hw false bool "all" (by decide), hr string "path" (by decide), hr (map range) "statementMap" (by decide),
      hr (map function) "fnMap" (by decide), hr (map branch) "branchMap" (by decide), hr (map u32) "s" (by decide),
      hr (map u32) "f" (by decide), hr (map (vec u32)) "b" (by decide), ho (map (vec u32)) "bT" (by decide),
      ho sourceMap "inputSourceMap" (by decide)]
  · rw [h1, h2]

/-- The emitted data object is read as the data. -/
theorem coverage_emitted (magic hash : String) {c : FileCoverage} (hk : c.Keyed) (hf : c.Fits)
    (hl : ∀ b ∈ c.branchMap.values, b.locations ≠ []) : coverage (.obj (dataFields magic hash c)) = some c := by
  obtain ⟨all, path, sm, fm, bm, s, f, b, bT, ism⟩ := c
  have h1 := map_tree range rangeTree sm hk.statementMap hf.statementMap fun _ => range_tree
  have h2 := map_tree function functionTree fm hk.fnMap hf.fnMap fun _ => function_tree
  have h3 : map branch (tableTree Template.branchTree bm) = some bm := by
    refine map_tree branch Template.branchTree bm (P := fun b => b.Fits ∧ b.locations ≠ []) hk.branchMap ?_
      fun v hv => branch_emitted hv.1 hv.2
    intro e he
    exact ⟨(hf.branchMap e he).1, (hf.branchMap e he).2, hl e.2 (List.mem_map.2 ⟨e, he, rfl⟩)⟩
  have h4 := map_tree u32 .num s hk.s hf.s fun _ => u32_num
  have h5 := map_tree u32 .num f hk.f hf.f fun _ => u32_num
  have h6 := map_tree (vec u32) (vecTree .num) b hk.b hf.b fun _ => counts_tree
  have h7 : ∀ m ∈ bT, map (vec u32) (mapTree (vecTree .num) m) = some m :=
    fun m hm => map_tree _ _ m (hk.bT m hm) (hf.bT m hm) fun _ => counts_tree
  have h8 : ∀ m ∈ ism, sourceMap (sourceMapTree m) = some m :=
    fun m hm => sourceMap_tree (hf.inputSourceMap m hm)
  have e1 : tableTree Template.rangeTree sm = mapTree rangeTree sm := rfl
  have e2 : tableTree Template.fnTree fm = mapTree functionTree fm := rfl
  have e4 : ∀ m, tableTree .num m = mapTree .num m := fun _ => rfl
  have e6 : ∀ m, tableTree countsTree m = mapTree (vecTree .num) m := fun _ => rfl
  have hs : struct readNames (.obj (dataFields magic hash ⟨all, path, sm, fm, bm, s, f, b, bT, ism⟩)) =
      some (dataFields magic hash ⟨all, path, sm, fm, bm, s, f, b, bT, ism⟩) := by
    cases bT <;> cases ism <;> rfl
  unfold coverage
  change (struct readNames (.obj (dataFields magic hash _))).bind _ = _
  rw [hs, Option.bind_some]
  unfold dataFields
  simp only [e1, e2, e4, e6, sourceMap_emitted]
  cases bT <;> cases ism <;>
    simp [optional, withDefault, required, member, IndexMap.get, h1, h2, h3, h4, h5, h6, h7, h8, opt_map,
      opt_sourceMap, string, bool, magicKey]

theorem within_emittedBranch (b : Branch) : Within 4 (Template.branchTree b) := by
  obtain ⟨loc, t, ls, line⟩ := b
  refine within_obj fun e he => ?_
  simp only [List.mem_append] at he
  rcases he with ((he | he) | he) | he
  · cases loc with
    | none => cases he
    | some r =>
      simp only [List.mem_singleton] at he
      subst he
      exact (within_range r).mono (by decide)
  · simp only [List.mem_singleton] at he
    subst he
    exact within_str _ _
  · split at he
    · simp only [List.mem_singleton] at he
      subst he
      exact within_vec ls within_range
    · cases he
  · cases line with
    | none => cases he
    | some n =>
      simp only [List.mem_singleton] at he
      subst he
      exact within_num _ _

/-- The emitted data object is nested at most six deep. -/
theorem within_emitted (magic hash : String) (c : FileCoverage) : Within 6 (.obj (dataFields magic hash c)) := by
  refine within_obj fun e he => ?_
  simp only [dataFields, List.mem_append, List.mem_cons, List.not_mem_nil, or_false] at he
  rcases he with (((rfl | rfl | rfl | rfl | rfl | rfl | rfl | rfl) | he) | he) | rfl | rfl
  · exact within_bool _ _
  · exact within_str _ _
  · exact (within_map _ within_range).mono (by decide)
  · exact (within_map _ within_function).mono (by decide)
  · exact within_map _ within_emittedBranch
  · exact within_map _ fun v => within_num 4 v
  · exact within_map _ fun v => within_num 4 v
  · exact within_map _ fun v => within_vec v fun n => within_num 3 n
  · cases hb : c.bT with
    | none => rw [hb] at he; cases he
    | some m =>
      rw [hb] at he
      simp only [List.mem_singleton] at he
      subst he
      exact within_map m fun v => within_vec v fun n => within_num 3 n
  · cases hb : c.inputSourceMap with
    | none => rw [hb] at he; cases he
    | some m =>
      rw [hb] at he
      simp only [List.mem_singleton] at he
      subst he
      rw [sourceMap_emitted]
      exact (within_sourceMap m).mono (by decide)
  · exact within_str _ _
  · exact within_str _ _

end Serde
end Verif

namespace Verif
open Js Template

theorem keys_of_forall₂ {A B : Type} {R : String × A → String × B → Prop} (h : ∀ a b, R a b → a.1 = b.1)
    {l : IndexMap String A} {l' : IndexMap String B} (hl : List.Forall₂ R l l') : l.keys = l'.keys := by
  induction hl with
  | nil => rfl
  | cons he _ ih =>
    simp only [IndexMap.keys, List.map_cons] at ih ⊢
    rw [ih, h _ _ he]

theorem exists_of_forall₂ {A B : Type} {R : A → B → Prop} {l : List A} {l' : List B} (hl : List.Forall₂ R l l') :
    ∀ a ∈ l, ∃ b ∈ l', R a b := by
  induction hl with
  | nil => intro a ha; cases ha
  | @cons a b l l' he _ ih =>
    intro x hx
    rcases List.mem_cons.1 hx with rfl | hx
    · exact ⟨b, List.mem_cons_self, he⟩
    · obtain ⟨y, h1, h2⟩ := ih x hx
      exact ⟨y, List.mem_cons_of_mem _ h1, h2⟩

namespace Js

theorem writesAll_filter {h : List Obj} {s : List Nat} {ps : List (String × Cell)} {fs : List (String × Data)}
    (p : String → Bool) (hw : WritesAll h s ps fs) :
    WritesAll h s (ps.filter fun e => p e.1) (fs.filter fun e => p e.1) := by
  match hw with
  | .nil => exact .nil
  | @WritesAll.skip _ _ k v ps fs hv hws =>
    have := writesAll_filter p hws
    simp only [List.filter_cons]
    split
    · exact .skip hv this
    · exact this
  | @WritesAll.keep _ _ k v d ps fs hv hws =>
    have := writesAll_filter p hws
    simp only [List.filter_cons]
    split
    · exact .keep hv this
    · exact this

/-- If every property can be written, the object can. -/
theorem writesAll_exists {h : List Obj} {s : List Nat} {ps : List (String × Cell)}
    (hw : ∀ e ∈ ps, ∃ v o, e.2 = .data v ∧ Writes h s v o) : ∃ fs, WritesAll h s ps fs := by
  induction ps with
  | nil => exact ⟨[], .nil⟩
  | cons e ps ih =>
    obtain ⟨k, c⟩ := e
    obtain ⟨fs, hfs⟩ := ih fun e he => hw e (List.mem_cons_of_mem _ he)
    obtain ⟨v, o, hv, ho⟩ := hw _ List.mem_cons_self
    simp only at hv
    subst hv
    cases o with
    | none => exact ⟨fs, .skip ho hfs⟩
    | some d => exact ⟨_, .keep ho hfs⟩

/-- If the object is written, every property is. -/
theorem writesAll_each {h : List Obj} {s : List Nat} {ps : List (String × Cell)} {fs : List (String × Data)}
    (hw : WritesAll h s ps fs) : ∀ e ∈ ps, ∃ v o, e.2 = .data v ∧ Writes h s v o := by
  match hw with
  | .nil => intro e he; cases he
  | @WritesAll.skip _ _ k v ps fs hv hws =>
    intro e he
    rcases List.mem_cons.1 he with rfl | he
    · exact ⟨v, _, rfl, hv⟩
    · exact writesAll_each hws e he
  | @WritesAll.keep _ _ k v d ps fs hv hws =>
    intro e he
    rcases List.mem_cons.1 he with rfl | he
    · exact ⟨v, _, rfl, hv⟩
    · exact writesAll_each hws e he

/-- If no property is left out, the members are those of the object. -/
theorem writesAll_full {h : List Obj} {s : List Nat} {ps : List (String × Cell)} {fs : List (String × Data)}
    (hw : WritesAll h s ps fs) (hn : ∀ e ∈ ps, ∀ v, e.2 = .data v → ¬ Writes h s v none) :
    List.Forall₂ (fun p e => p.1 = e.1 ∧ ∃ v, p.2 = .data v ∧ Writes h s v (some e.2)) ps fs := by
  match hw with
  | .nil => exact .nil
  | @WritesAll.skip _ _ k v ps fs hv hws => exact absurd hv (hn _ List.mem_cons_self v rfl)
  | @WritesAll.keep _ _ k v d ps fs hv hws =>
    exact .cons ⟨rfl, v, rfl, hv⟩ (writesAll_full hws fun e he => hn e (List.mem_cons_of_mem _ he))

end Js

namespace Runtime

theorem tempName_ne (cov : String) : tempName cov ≠ "toJSON" := by
  intro e
  have h : (tempName cov).toList.getLast? = some 'p' := by
    unfold tempName
    rw [String.toList_append, List.getLast?_append]
    rfl
  rw [e] at h
  exact absurd h (by decide)

theorem tempName_notField (cov : String) : tempName cov ∉ fieldNames := by
  intro hm
  have h : (tempName cov).toList.reverse.take 2 = ['p', 'm'] := by
    unfold tempName
    rw [String.toList_append, List.reverse_append]
    rfl
  have hall : ∀ k ∈ fieldNames, k.toList.reverse.take 2 ≠ ['p', 'm'] := by decide +kernel
  exact hall _ hm h

section
variable {H : List Obj} {x : Box} {e : Input × FileCoverage} {s : List Nat}

/-- A data object is written by its members. -/
theorem Held.writes (h : Held H x e) (hn : NoHooks H) (hs : ∀ a ∈ s, a < x.lo ∨ x.hi ≤ a) :
    ∃ ps, H[x.root]? = some ⟨.plain, some objectProto, ps⟩ ∧ Temps e.2 ps ∧
      List.Forall₂ (WrittenAs H (x.root :: s)) (known ps) (dataFields e.1.magic e.1.hash e.2) ∧
      ∀ o, Writes H s (.ref x.root) o ↔ ∃ fs, o = some (.obj fs) ∧ WritesAll H (x.root :: s) (listed ps) fs := by
  obtain ⟨ps, m, h1, h2, h3, h4, h5⟩ := h
  have hle := h4.le
  have hrel := ReadsAll.written hn h4 (arranged_data _ _ _).2 (x.root :: s) (fun a ha => by
    rcases List.mem_cons.1 ha with rfl | ha
    · exact Or.inr h2
    · rcases hs a ha with ha | ha
      · exact Or.inl ha
      · exact Or.inr (by omega))
  refine ⟨ps, h1, h5, hrel, writes_obj h1 hn (get_none_of fun e he => ?_) (fun k g hg => ?_) fun hx => ?_⟩
  · rcases h5 e he with h | ⟨_, cov, v, rfl⟩
    · exact (by decide : ∀ k ∈ fieldNames, k ≠ "toJSON") _ h
    · exact tempName_ne cov
  · rcases h5 _ hg with h | ⟨_, cov, v, he⟩
    · exact written_data hrel k g (List.mem_filter.2 ⟨hg, by simpa using h⟩)
    · cases he
  · rcases hs _ hx with h | h <;> omega

/-- What is written for a data object has the data as its known members. -/
theorem Held.leaves (h : Held H x e) (hn : NoHooks H) (hs : ∀ a ∈ s, a < x.lo ∨ x.hi ≤ a) {o : Option Data}
    (hw : Writes H s (.ref x.root) o) :
    ∃ fs, o = some (.obj fs) ∧ (fs.filter fun e => e.1 ∈ fieldNames) = dataFields e.1.magic e.1.hash e.2.arranged := by
  obtain ⟨ps, _, _, hrel, hiff⟩ := h.writes hn hs
  obtain ⟨fs, rfl, hfs⟩ := (hiff o).1 hw
  refine ⟨fs, rfl, ?_⟩
  have h1 := writesAll_filter (fun k => k ∈ fieldNames) hfs
  have h2 : ((listed ps).filter fun e => decide (e.1 ∈ fieldNames)) = known ps :=
    filter_arrange fun a _ ha => recordNames_index _ (List.mem_append_right _ (by simpa using ha))
  rw [h2] at h1
  rw [(writesAll_of hrel _).1 h1, ← (arranged_data _ _ _).1, Data.arrangedFields_eq]

/-- A data object can be written if its temporaries can. -/
theorem Held.can (h : Held H x e) (hn : NoHooks H) (hs : ∀ a ∈ s, a < x.lo ∨ x.hi ≤ a)
    (ht : ∀ ps k v, H[x.root]? = some ⟨.plain, some objectProto, ps⟩ → (k, Cell.data v) ∈ ps → k ∉ fieldNames →
      ∃ o, Writes H (x.root :: s) v o) : ∃ d, Writes H s (.ref x.root) (some d) := by
  obtain ⟨ps, h1, h2, hrel, hiff⟩ := h.writes hn hs
  have hk := writesAll_each ((writesAll_of hrel _).2 rfl)
  obtain ⟨fs, hfs⟩ := writesAll_exists (h := H) (s := x.root :: s) (ps := listed ps) (fun e he => by
    have he := (arrange_perm _ _).mem_iff.1 he
    by_cases hf : e.1 ∈ fieldNames
    · exact hk e (List.mem_filter.2 ⟨he, by simpa using hf⟩)
    · rcases h2 e he with h | ⟨_, cov, v, rfl⟩
      · exact absurd h hf
      · obtain ⟨o, ho⟩ := ht ps _ v h1 he hf
        exact ⟨v, o, rfl, ho⟩)
  exact ⟨_, (hiff _).2 ⟨fs, rfl, hfs⟩⟩

/-- Without temporaries there is one way to write a data object. -/
theorem Held.bare (h : Held H x e) (hn : NoHooks H) (hs : ∀ a ∈ s, a < x.lo ∨ x.hi ≤ a) (ht : e.2.bT = none ∨ Spare H x)
    (o : Option Data) :
    Writes H s (.ref x.root) o ↔ o = some (.obj (dataFields e.1.magic e.1.hash e.2.arranged)) := by
  obtain ⟨ps, h1, h2, hrel, hiff⟩ := h.writes hn hs
  have hall : ∀ e ∈ ps, e.1 ∈ fieldNames := by
    intro e he
    rcases ht with ht | ht
    · rcases h2 e he with h | ⟨hb, _⟩
      · exact h
      · rw [ht] at hb
        cases hb
    · exact ht ps h1 e he
  have hps : listed ps = known ps := by
    unfold listed known
    rw [arrange_none fun e he => recordNames_index _ (List.mem_append_right _ (hall e he))]
    exact (List.filter_eq_self.2 fun e he => by simpa using hall e he).symm
  rw [hiff, hps]
  constructor
  · rintro ⟨fs, rfl, hfs⟩
    rw [(writesAll_of hrel _).1 hfs, ← (arranged_data _ _ _).1, Data.arrangedFields_eq]
  · rintro rfl
    refine ⟨_, rfl, (writesAll_of hrel _).2 ?_⟩
    rw [← (arranged_data _ _ _).1, Data.arrangedFields_eq]

end

theorem nodup_current {b : Books} (h : b.current.NodupKeys) (es : List Event) : (b.after es).current.NodupKeys := by
  induction es generalizing b with
  | nil => exact h
  | cons e es ih =>
    refine ih ?_
    cases e with
    | load i =>
      show (b.load i).current.NodupKeys
      unfold Books.load
      split
      · exact h
      · exact IndexMap.nodupKeys_insert h _ _
    | hit k c =>
      show (b.hit k c).current.NodupKeys
      unfold Books.hit
      split <;> exact h

theorem hit_sound {c : FileCoverage} (h : c.Keyed) (x : Counter) :
    (c.hit x).Keyed ∧ (c.hit x).branchMap = c.branchMap := by
  cases x with
  | s id => exact ⟨{ h with s := IndexMap.nodupKeys_modify h.s _ _ }, rfl⟩
  | f id => exact ⟨{ h with f := IndexMap.nodupKeys_modify h.f _ _ }, rfl⟩
  | b id arm => exact ⟨{ h with b := IndexMap.nodupKeys_modify h.b _ _ }, rfl⟩
  | bT id arm =>
    refine ⟨{ h with bT := fun m hm => ?_ }, rfl⟩
    obtain ⟨m', hm', rfl⟩ := Option.map_eq_some_iff.1 (Option.mem_def.1 hm)
    exact IndexMap.nodupKeys_modify (h.bT m' hm') _ _

/-- The data of the books have distinct keys and the branches of their files. -/
def Tidy (b : Books) : Prop := ∀ e ∈ b.sets, e.2.Keyed ∧ e.2.branchMap = e.1.data.branchMap

theorem Tidy.after {gcv : String} {b : Books} (h : Tidy b) (es : List Event)
    (hp : ∀ i, Event.load i ∈ es → Proper gcv i) : Tidy (b.after es) := by
  induction es generalizing b with
  | nil => exact h
  | cons e es ih =>
    refine ih ?_ fun i hi => hp i (List.mem_cons_of_mem _ hi)
    cases e with
    | load i =>
      show Tidy (b.load i)
      unfold Books.load
      split
      · exact h
      · intro e he
        rcases List.mem_append.1 he with he | he
        · exact h e he
        · simp only [List.mem_singleton] at he
          subst he
          exact ⟨(hp i List.mem_cons_self).keyed, rfl⟩
    | hit k c =>
      show Tidy (b.hit k c)
      unfold Books.hit
      split
      · exact h
      · intro e he
        obtain ⟨j, hj⟩ := List.mem_iff_getElem?.1 he
        rw [List.getElem?_modify] at hj
        split at hj
        · obtain ⟨a, ha, rfl⟩ := Option.map_eq_some_iff.1 hj
          have := h a (List.mem_of_getElem? ha)
          have h2 := hit_sound this.1 c
          exact ⟨h2.1, h2.2.trans this.2⟩
        · obtain ⟨a, ha, rfl⟩ := Option.map_eq_some_iff.1 hj
          exact h a (List.mem_of_getElem? ha)

theorem Tidy.at {b : Books} (h : Tidy b) {path : String} {i : Input} {c : FileCoverage}
    (hat : b.at path = some (i, c)) : c.Keyed ∧ c.branchMap = i.data.branchMap := by
  unfold Books.at at hat
  split at hat
  · cases hat
  · exact h _ (List.mem_of_getElem? hat)

/-- The entry of a path. -/
theorem Inv.entry {gcv : String} {H : List Obj} {F : List (IndexMap String Value)} {insts : List Instance} {b : Books}
    {boxes : List Box} (hi : Inv gcv H F insts b boxes) {path : String} {e : Input × FileCoverage}
    (hat : b.at path = some e) :
    ∃ R ps x, Opened gcv H R ps ∧ ps.get path = some (.data (.ref x.root)) ∧ Held H x e ∧ x ∈ boxes := by
  rcases hi.reg with ⟨h1, _⟩ | ⟨R, ps, h1, _, h3⟩
  · unfold Books.at at hat
    rw [h1] at hat
    cases hat
  · rcases entries_get h3 path with ⟨k1, _⟩ | ⟨n, x, k1, k2, k3⟩
    · unfold Books.at at hat
      rw [k1] at hat
      cases hat
    · unfold Books.at at hat
      rw [k1] at hat
      exact ⟨R, ps, x, h1, k3, hi.held n x e k2 hat, List.mem_of_getElem? k2⟩

end Runtime
end Verif
