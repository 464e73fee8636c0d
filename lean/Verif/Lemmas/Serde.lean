import Verif.Model.Emit
import Verif.Spec.Serde
import Verif.Lemmas.Json
import Verif.Lemmas.IndexMap
import Verif.Lemmas.Template
/-
Reading the trees of coverage data.
-/
namespace Verif.Serde
open Json

theorem u32_num {n : Nat} (h : n < 2 ^ 32) : u32 (.num n) = some n := by
  rw [u32, if_pos h]

theorem u32_some {d : Data} {n : Nat} (h : u32 d = some n) : n < 2 ^ 32 := by
  cases d <;> simp only [u32, reduceCtorEq] at h
  split at h
  · cases h; assumption
  · cases h

theorem readAll_map {A B V : Type} (f : B → Option V) (g : A → B) (r : A → V) (l : List A)
    (h : ∀ a ∈ l, f (g a) = some (r a)) : readAll f (l.map g) = some (l.map r) := by
  induction l with
  | nil => rfl
  | cons a l ih =>
    simp only [List.map_cons, readAll]
    rw [h a List.mem_cons_self, ih fun b hb => h b (List.mem_cons_of_mem _ hb)]
    rfl

theorem readAll_some {A V : Type} {f : A → Option V} {l : List A} {vs : List V} (h : readAll f l = some vs) :
    ∀ v ∈ vs, ∃ a ∈ l, f a = some v := by
  induction l generalizing vs with
  | nil => simp only [readAll, Option.some.injEq] at h; subst h; simp
  | cons a l ih =>
    simp only [readAll] at h
    split at h
    · cases h
    · rename_i w hw
      cases e : readAll f l with
      | none => rw [e] at h; cases h
      | some ws =>
        rw [e] at h
        simp only [Option.map_some, Option.some.injEq] at h
        subst h
        intro v hv
        rcases List.mem_cons.1 hv with rfl | hv
        · exact ⟨a, List.mem_cons_self, hw⟩
        · obtain ⟨b, hb, hf⟩ := ih e v hv
          exact ⟨b, List.mem_cons_of_mem _ hb, hf⟩

theorem vec_tree {V : Type} (f : Data → Option V) (g : V → Data) (l : List V)
    (h : ∀ v ∈ l, f (g v) = some v) : vec f (vecTree g l) = some l := by
  show readAll f (l.map g) = some l
  have := readAll_map f g id l h
  rwa [List.map_id] at this

theorem vec_some {V : Type} {f : Data → Option V} {d : Data} {l : List V} (h : vec f d = some l) :
    ∀ v ∈ l, ∃ d', f d' = some v := by
  cases d <;> simp only [vec, reduceCtorEq] at h
  intro v hv
  obtain ⟨a, _, ha⟩ := readAll_some h v hv
  exact ⟨a, ha⟩

theorem opt_tree {V : Type} (f : Data → Option V) (g : V → Data) (o : Option V)
    (h : ∀ v ∈ o, f (g v) = some v) (hn : ∀ v, g v ≠ .null) : opt f (optTree g o) = some o := by
  cases o with
  | none => rfl
  | some v =>
    have := h v rfl
    show opt f (g v) = some (some v)
    have hv := hn v
    cases hg : g v with
    | null => exact absurd hg hv
    | _ => rw [hg] at this; simp only [opt, this, Option.map_some]

theorem opt_some {V : Type} {f : Data → Option V} {d : Data} {v : V} (h : opt f d = some (some v)) :
    ∃ d', f d' = some v := by
  cases d <;> simp only [opt, Option.some.injEq, reduceCtorEq, Option.map_eq_some_iff] at h <;>
    (obtain ⟨a, ha, rfl⟩ := h; exact ⟨_, ha⟩)

/-! ### Maps -/

theorem key_toString {n : Nat} (h : n < 2 ^ 32) : key (toString n) = some n := by
  unfold key
  have := number_toDigits n [] trivial
  rw [List.append_nil] at this
  rw [Nat.toString_eq_ofList_toDigits, String.toList_ofList, this]
  exact u32_num h

theorem key_some {s : String} {n : Nat} (h : key s = some n) : n < 2 ^ 32 := by
  unfold key at h
  split at h
  · exact u32_some h
  · cases h

theorem foldl_insert {V : Type} (l m : IndexMap Nat V) (h : IndexMap.NodupKeys (m ++ l)) :
    l.foldl (fun m e => IndexMap.insert m e.1 e.2) m = m ++ l := by
  induction l generalizing m with
  | nil => simp
  | cons e l ih =>
    have hn : e.1 ∉ IndexMap.keys m := by
      intro hm
      unfold IndexMap.NodupKeys IndexMap.keys at h
      rw [List.map_append, List.nodup_append] at h
      exact h.2.2 _ hm e.1 (by simp) rfl
    rw [List.foldl_cons, IndexMap.insert_of_not_mem hn, ih]
    · simp
    · simpa using h

theorem map_tree {V : Type} (f : Data → Option V) (g : V → Data) (m : IndexMap Nat V) {P : V → Prop}
    (hm : IndexMap.NodupKeys m) (hf : IndexMap.Fits P m) (h : ∀ v, P v → f (g v) = some v) :
    map f (mapTree g m) = some m := by
  show (readAll (entry f) (m.map fun e => (toString e.1, g e.2))).map _ = _
  rw [readAll_map (entry f) _ id m (fun e he => by
    rw [entry, key_toString (hf e he).1, h _ (hf e he).2]; rfl)]
  rw [List.map_id, Option.map_some, foldl_insert]
  · rfl
  · exact hm

theorem foldl_insert_inv {V : Type} {P : Nat → V → Prop} (l m : IndexMap Nat V) (hl : ∀ e ∈ l, P e.1 e.2)
    (hm : ∀ e ∈ m, P e.1 e.2) (hn : IndexMap.NodupKeys m) :
    (∀ e ∈ l.foldl (fun m e => IndexMap.insert m e.1 e.2) m, P e.1 e.2) ∧
      IndexMap.NodupKeys (l.foldl (fun m e => IndexMap.insert m e.1 e.2) m) := by
  induction l generalizing m with
  | nil => exact ⟨hm, hn⟩
  | cons e l ih =>
    rw [List.foldl_cons]
    exact ih _ (fun a ha => hl a (List.mem_cons_of_mem _ ha))
      (IndexMap.forall_insert hm (hl e List.mem_cons_self)) (IndexMap.nodupKeys_insert hn _ _)

theorem map_some {V : Type} {f : Data → Option V} {d : Data} {m : IndexMap Nat V} (h : map f d = some m)
    {P : V → Prop} (hP : ∀ d v, f d = some v → P v) : IndexMap.NodupKeys m ∧ IndexMap.Fits P m := by
  cases d <;> simp only [map, reduceCtorEq, Option.map_eq_some_iff] at h
  obtain ⟨l, hl, rfl⟩ := h
  have := foldl_insert_inv (P := fun k v => k < 2 ^ 32 ∧ P v) l [] (fun e he => by
    obtain ⟨a, _, ha⟩ := readAll_some hl e he
    unfold entry at ha
    split at ha
    · cases ha
    · rename_i n hn
      obtain ⟨v, hv, rfl⟩ := Option.map_eq_some_iff.1 ha
      exact ⟨key_some hn, hP _ _ hv⟩) (by simp) (by simp [IndexMap.NodupKeys, IndexMap.keys])
  exact ⟨this.2, this.1⟩

/-! ### The structs -/

theorem location_tree {l : Location} (h : l.Fits) : location (locationTree l) = some l := by
  have hs : struct ["line", "column"] (locationTree l) = some [("line", .num l.line), ("column", .num l.column)] := rfl
  unfold location
  rw [hs]
  simp [required, member, IndexMap.get, u32_num h.1, u32_num h.2]

theorem range_tree {r : Range} (h : r.Fits) : range (rangeTree r) = some r := by
  have hs : struct ["start", "end"] (rangeTree r) =
    some [("start", locationTree r.start), ("end", locationTree r.end)] := rfl
  unfold range
  rw [hs]
  simp [required, member, IndexMap.get, location_tree h.1, location_tree h.2]

theorem function_tree {f : Function} (h : f.Fits) : function (functionTree f) = some f := by
  have hs : struct ["name", "decl", "loc", "line"] (functionTree f) =
    some [("name", .str f.name), ("decl", rangeTree f.decl), ("loc", rangeTree f.loc), ("line", .num f.line)] := rfl
  unfold function
  rw [hs]
  simp [required, member, IndexMap.get, string, range_tree h.1, range_tree h.2.1, u32_num h.2.2]

theorem branchType_tree (t : BranchType) : branchType (branchTypeTree t) = some t := by
  cases t <;> rfl

theorem branch_tree {b : Branch} (h : b.Fits) : branch (branchTree b) = some b := by
  have hs : struct ["loc", "type", "locations", "line"] (branchTree b) =
    some [("loc", optTree rangeTree b.loc), ("type", branchTypeTree b.branchType),
      ("locations", vecTree rangeTree b.locations), ("line", optTree .num b.line)] := rfl
  unfold branch
  rw [hs]
  have h1 := opt_tree range rangeTree b.loc (fun r hr => range_tree (h.1 r hr)) (fun _ => by simp [rangeTree])
  have h2 := vec_tree range rangeTree b.locations fun r hr => range_tree (h.2.1 r hr)
  have h3 := opt_tree u32 .num b.line (fun r hr => u32_num (h.2.2 r hr)) (fun _ => by simp)
  simp [required, optional, withDefault, member, IndexMap.get, branchType_tree, h1, h2, h3]

theorem strings_tree (l : List String) : vec string (vecTree .str l) = some l := vec_tree _ _ _ fun _ _ => rfl

theorem contents_tree (l : List (Option String)) : vec (opt string) (vecTree (optTree .str) l) = some l :=
  vec_tree _ _ _ fun v _ => by cases v <;> rfl

theorem opt_vec {V : Type} (f : Data → Option V) (g : V → Data) (l : List V) :
    opt (vec f) (vecTree g l) = (vec f (vecTree g l)).map some := rfl

theorem opt_str (s : String) : opt string (.str s) = some (some s) := rfl

theorem sourceMap_tree {m : SourceMap} (h : m.version < 2 ^ 32) : sourceMap (sourceMapTree m) = some m := by
  obtain ⟨version, file, root, sources, contents, names, mappings⟩ := m
  have hs : struct ["version", "file", "sourceRoot", "sources", "sourcesContent", "names", "mappings"]
      (sourceMapTree ⟨version, file, root, sources, contents, names, mappings⟩) =
    some ([("version", .num version)] ++ skipNone "file" .str file ++ skipNone "sourceRoot" .str root
    ++ [("sources", vecTree .str sources)] ++ skipNone "sourcesContent" (vecTree (optTree .str)) contents
    ++ [("names", vecTree .str names), ("mappings", .str mappings)]) := by
    cases file <;> cases root <;> cases contents <;> rfl
  unfold sourceMap
  rw [hs]
  cases file <;> cases root <;> cases contents <;>
    simp [skipNone, optional, withDefault, member, IndexMap.get, u32_num h, strings_tree, contents_tree, opt_vec,
      string, opt_str]

theorem opt_map {V : Type} (f : Data → Option V) (g : V → Data) (m : IndexMap Nat V) :
    opt (map f) (mapTree g m) = (map f (mapTree g m)).map some := rfl

theorem opt_sourceMap (m : SourceMap) : opt sourceMap (sourceMapTree m) = (sourceMap (sourceMapTree m)).map some := rfl

theorem counts_tree {l : List Nat} (h : ∀ n ∈ l, n < 2 ^ 32) : vec u32 (vecTree .num l) = some l :=
  vec_tree _ _ _ fun v hv => u32_num (h v hv)

/-- What is written is read back, as trees. -/
theorem coverage_tree {c : FileCoverage} (hk : c.Keyed) (hf : c.Fits) : coverage (coverageTree c) = some c := by
  obtain ⟨all, path, sm, fm, bm, s, f, b, bT, ism⟩ := c
  have h1 := map_tree range rangeTree sm hk.statementMap hf.statementMap fun _ => range_tree
  have h2 := map_tree function functionTree fm hk.fnMap hf.fnMap fun _ => function_tree
  have h3 := map_tree branch branchTree bm hk.branchMap hf.branchMap fun _ => branch_tree
  have h4 := map_tree u32 .num s hk.s hf.s fun _ => u32_num
  have h5 := map_tree u32 .num f hk.f hf.f fun _ => u32_num
  have h6 := map_tree (vec u32) (vecTree .num) b hk.b hf.b fun _ => counts_tree
  have h7 : ∀ m ∈ bT, map (vec u32) (mapTree (vecTree .num) m) = some m :=
    fun m hm => map_tree _ _ m (hk.bT m hm) (hf.bT m hm) fun _ => counts_tree
  have h8 : ∀ m ∈ ism, sourceMap (sourceMapTree m) = some m :=
    fun m hm => sourceMap_tree (hf.inputSourceMap m hm)
  have hs : struct ["all", "path", "statementMap", "fnMap", "branchMap", "s", "f", "b", "bT", "inputSourceMap"]
      (coverageTree ⟨all, path, sm, fm, bm, s, f, b, bT, ism⟩) =
    some ([("all", .bool all), ("path", .str path), ("statementMap", mapTree rangeTree sm),
      ("fnMap", mapTree functionTree fm), ("branchMap", mapTree branchTree bm),
      ("s", mapTree .num s), ("f", mapTree .num f), ("b", mapTree (vecTree .num) b)]
    ++ skipNone "bT" (mapTree (vecTree .num)) bT ++ skipNone "inputSourceMap" sourceMapTree ism) := by
    cases bT <;> cases ism <;> rfl
  unfold coverage
  rw [hs]
  cases bT <;> cases ism <;>
    simp [skipNone, optional, withDefault, required, member, IndexMap.get, h1, h2, h3, h4, h5, h6, h7, h8, opt_map,
      opt_sourceMap, string, bool]

/-! ### What has been read -/

theorem required_some {V : Type} {f : Data → Option V} {fs : List (String × Data)} {k : String} {v : V}
    (h : required f fs k = some v) : ∃ d, f d = some v := by
  unfold required at h
  split at h
  · cases h
  · exact ⟨_, h⟩

theorem optional_some {V : Type} {f : Data → Option V} {fs : List (String × Data)} {k : String} {o : Option V}
    (h : optional f fs k = some o) : ∀ v ∈ o, ∃ d, f d = some v := by
  rintro v rfl
  unfold optional withDefault at h
  split at h
  · cases h
  · exact opt_some h

theorem location_some {d : Data} {l : Location} (h : location d = some l) : l.Fits := by
  unfold location at h
  simp only [Option.bind_eq_bind, Option.bind_eq_some_iff, Option.pure_def, Option.some.injEq] at h
  obtain ⟨fs, _, a, ha, b, hb, rfl⟩ := h
  obtain ⟨_, ha⟩ := required_some ha
  obtain ⟨_, hb⟩ := required_some hb
  exact ⟨u32_some ha, u32_some hb⟩

theorem range_some {d : Data} {r : Range} (h : range d = some r) : r.Fits := by
  unfold range at h
  simp only [Option.bind_eq_bind, Option.bind_eq_some_iff, Option.pure_def, Option.some.injEq] at h
  obtain ⟨fs, _, a, ha, b, hb, rfl⟩ := h
  obtain ⟨_, ha⟩ := required_some ha
  obtain ⟨_, hb⟩ := required_some hb
  exact ⟨location_some ha, location_some hb⟩

theorem function_some {d : Data} {f : Function} (h : function d = some f) : f.Fits := by
  unfold function at h
  simp only [Option.bind_eq_bind, Option.bind_eq_some_iff, Option.pure_def, Option.some.injEq] at h
  obtain ⟨fs, _, a, _, b, hb, c, hc, e, he, rfl⟩ := h
  obtain ⟨_, hb⟩ := required_some hb
  obtain ⟨_, hc⟩ := required_some hc
  obtain ⟨_, he⟩ := required_some he
  exact ⟨range_some hb, range_some hc, u32_some he⟩

theorem branch_some {d : Data} {b : Branch} (h : branch d = some b) : b.Fits := by
  unfold branch at h
  simp only [Option.bind_eq_bind, Option.bind_eq_some_iff, Option.pure_def, Option.some.injEq] at h
  obtain ⟨fs, _, a, ha, b, hb, c, hc, e, he, rfl⟩ := h
  obtain ⟨_, hc⟩ := required_some hc
  refine ⟨fun r hr => ?_, fun r hr => ?_, fun n hn => ?_⟩
  · obtain ⟨_, h⟩ := optional_some ha r hr
    exact range_some h
  · obtain ⟨_, h⟩ := vec_some hc r hr
    exact range_some h
  · obtain ⟨_, h⟩ := optional_some he n hn
    exact u32_some h

theorem sourceMap_some {d : Data} {m : SourceMap} (h : sourceMap d = some m) : m.version < 2 ^ 32 := by
  unfold sourceMap at h
  simp only [Option.bind_eq_bind, Option.bind_eq_some_iff, Option.pure_def, Option.some.injEq] at h
  obtain ⟨fs, _, a, ha, _, _, _, _, _, _, _, _, _, _, _, _, rfl⟩ := h
  unfold withDefault at ha
  split at ha
  · cases ha; show 3 < 2 ^ 32; decide
  · exact u32_some ha

theorem counts_some {d : Data} {l : List Nat} (h : vec u32 d = some l) : ∀ n ∈ l, n < 2 ^ 32 := fun n hn => by
  obtain ⟨_, h⟩ := vec_some h n hn
  exact u32_some h

/-- Coverage data that was read has no key twice and only 32 bit numbers. -/
theorem coverage_some {d : Data} {c : FileCoverage} (h : coverage d = some c) : c.Keyed ∧ c.Fits := by
  unfold coverage at h
  simp only [Option.bind_eq_bind, Option.bind_eq_some_iff, Option.pure_def, Option.some.injEq] at h
  obtain ⟨fs, _, _, _, _, _, sm, h1, fm, h2, bm, h3, s, h4, f, h5, b, h6, bT, h7, ism, h8, rfl⟩ := h
  obtain ⟨_, h1⟩ := required_some h1
  obtain ⟨_, h2⟩ := required_some h2
  obtain ⟨_, h3⟩ := required_some h3
  obtain ⟨_, h4⟩ := required_some h4
  obtain ⟨_, h5⟩ := required_some h5
  obtain ⟨_, h6⟩ := required_some h6
  have k1 := map_some h1 fun _ _ => range_some
  have k2 := map_some h2 fun _ _ => function_some
  have k3 := map_some h3 fun _ _ => branch_some
  have k4 := map_some h4 fun _ _ => u32_some
  have k5 := map_some h5 fun _ _ => u32_some
  have k6 := map_some h6 fun _ _ => counts_some
  have k7 : ∀ m ∈ bT, IndexMap.NodupKeys m ∧ IndexMap.Fits (∀ n ∈ ·, n < 2 ^ 32) m := fun m hm => by
    obtain ⟨_, h⟩ := optional_some h7 m hm
    exact map_some h fun _ _ => counts_some
  refine ⟨⟨k1.1, k2.1, k3.1, k4.1, k5.1, k6.1, fun m hm => (k7 m hm).1⟩,
    ⟨k1.2, k2.2, k3.2, k4.2, k5.2, k6.2, fun m hm => (k7 m hm).2, fun m hm => ?_⟩⟩
  obtain ⟨_, h⟩ := optional_some h8 m hm
  exact sourceMap_some h

/-! ### The bounds of the text -/

theorem wholeItems_map {A : Type} (g : A → Data) (l : List A) (h : ∀ a, whole (g a) = true) :
    wholeItems (l.map g) = true := by
  induction l with
  | nil => rfl
  | cons a l ih => rw [List.map_cons, wholeItems, h, ih]; rfl

theorem wholeFields_map {A : Type} (k : A → String) (g : A → Data) (l : List A) (h : ∀ a, whole (g a) = true) :
    wholeFields (l.map fun a => (k a, g a)) = true := by
  induction l with
  | nil => rfl
  | cons a l ih => rw [List.map_cons, wholeFields, h, ih]; rfl

theorem heightItems_map {A : Type} (g : A → Data) (l : List A) (n : Nat) (h : ∀ a, height (g a) ≤ n) :
    heightItems (l.map g) ≤ n := by
  induction l with
  | nil => exact Nat.zero_le _
  | cons a l ih =>
    rw [List.map_cons, heightItems]
    exact Nat.max_le.2 ⟨h a, ih⟩

theorem heightFields_map {A : Type} (k : A → String) (g : A → Data) (l : List A) (n : Nat)
    (h : ∀ a, height (g a) ≤ n) : heightFields (l.map fun a => (k a, g a)) ≤ n := by
  induction l with
  | nil => exact Nat.zero_le _
  | cons a l ih =>
    rw [List.map_cons, heightFields]
    exact Nat.max_le.2 ⟨h a, ih⟩

/-- Only natural numbers, and not nested deeper than this. -/
def Within (n : Nat) (d : Data) : Prop := whole d = true ∧ height d ≤ n

theorem Within.mono {n m : Nat} {d : Data} (h : Within n d) (hm : n ≤ m) : Within m d := ⟨h.1, Nat.le_trans h.2 hm⟩

theorem within_vec {V : Type} {g : V → Data} {n : Nat} (l : List V) (h : ∀ v, Within n (g v)) :
    Within (n + 1) (vecTree g l) := by
  constructor
  · rw [vecTree, whole]; exact wholeItems_map g l fun v => (h v).1
  · rw [vecTree, height]; exact Nat.succ_le_succ (heightItems_map g l n fun v => (h v).2)

theorem within_map {V : Type} {g : V → Data} {n : Nat} (m : IndexMap Nat V) (h : ∀ v, Within n (g v)) :
    Within (n + 1) (mapTree g m) := by
  constructor
  · rw [mapTree, whole]; exact wholeFields_map _ (fun e : Nat × V => g e.2) m fun v => (h v.2).1
  · rw [mapTree, height]; exact Nat.succ_le_succ (heightFields_map _ (fun e : Nat × V => g e.2) m n fun v => (h v.2).2)

theorem within_opt {V : Type} {g : V → Data} {n : Nat} (o : Option V) (h : ∀ v, Within n (g v)) :
    Within n (optTree g o) := by
  cases o with
  | none => exact ⟨rfl, Nat.zero_le _⟩
  | some v => exact h v

theorem within_fields {fs : List (String × Data)} {n : Nat} (h : ∀ e ∈ fs, Within n e.2) :
    wholeFields fs = true ∧ heightFields fs ≤ n := by
  induction fs with
  | nil => exact ⟨rfl, Nat.zero_le _⟩
  | cons e fs ih =>
    obtain ⟨k, d⟩ := e
    have h1 := h (k, d) List.mem_cons_self
    have h2 := ih fun e he => h e (List.mem_cons_of_mem _ he)
    rw [wholeFields, heightFields, h1.1, h2.1]
    exact ⟨rfl, Nat.max_le.2 ⟨h1.2, h2.2⟩⟩

theorem within_obj {fs : List (String × Data)} {n : Nat} (h : ∀ e ∈ fs, Within n e.2) : Within (n + 1) (.obj fs) := by
  have := within_fields h
  constructor
  · rw [whole]; exact this.1
  · rw [height]; exact Nat.succ_le_succ this.2

theorem within_num (n k : Nat) : Within n (.num k) := ⟨rfl, Nat.zero_le _⟩
theorem within_str (n : Nat) (s : String) : Within n (.str s) := ⟨rfl, Nat.zero_le _⟩
theorem within_bool (n : Nat) (b : Bool) : Within n (.bool b) := ⟨rfl, Nat.zero_le _⟩

theorem within_location (l : Location) : Within 1 (locationTree l) :=
  within_obj (by simp only [List.mem_cons, List.not_mem_nil, or_false, forall_eq_or_imp, forall_eq]
                 exact ⟨within_num _ _, within_num _ _⟩)

theorem within_range (r : Range) : Within 2 (rangeTree r) :=
  within_obj (by simp only [List.mem_cons, List.not_mem_nil, or_false, forall_eq_or_imp, forall_eq]
                 exact ⟨within_location _, within_location _⟩)

theorem within_function (f : Function) : Within 3 (functionTree f) :=
  within_obj (by simp only [List.mem_cons, List.not_mem_nil, or_false, forall_eq_or_imp, forall_eq]
                 exact ⟨within_str _ _, within_range _, within_range _, within_num _ _⟩)

theorem within_branch (b : Branch) : Within 4 (branchTree b) :=
  within_obj (by simp only [List.mem_cons, List.not_mem_nil, or_false, forall_eq_or_imp, forall_eq]
                 exact ⟨(within_opt _ within_range).mono (by decide), by cases b.branchType <;> exact within_str _ _,
                   within_vec _ within_range, (within_opt _ fun _ => within_num 3 _)⟩)

theorem within_skipNone {V : Type} {k : String} {g : V → Data} {o : Option V} {n : Nat}
    (h : ∀ v, Within n (g v)) : ∀ e ∈ skipNone k g o, Within n e.2 := by
  cases o with
  | none => intro e he; cases he
  | some v =>
    intro e he
    simp only [skipNone, List.mem_singleton] at he
    subst he
    exact h v

theorem within_sourceMap (m : SourceMap) : Within 2 (sourceMapTree m) := by
  refine within_obj fun e he => ?_
  simp only [List.mem_append, List.mem_cons, List.not_mem_nil, or_false] at he
  rcases he with ((((rfl | he) | he) | rfl) | he) | rfl | rfl
  · exact within_num _ _
  · exact within_skipNone (fun v => within_str 1 v) e he
  · exact within_skipNone (fun v => within_str 1 v) e he
  · exact within_vec _ fun v => within_str 0 v
  · exact within_skipNone (fun v => within_vec v fun o => within_opt o fun s => within_str 0 s) e he
  · exact within_vec _ fun v => within_str 0 v
  · exact within_str _ _

/-- Coverage data are nested at most six deep. -/
theorem within_coverage (c : FileCoverage) : Within 6 (coverageTree c) := by
  refine within_obj fun e he => ?_
  simp only [List.mem_append, List.mem_cons, List.not_mem_nil, or_false] at he
  rcases he with ((rfl | rfl | rfl | rfl | rfl | rfl | rfl | rfl) | he) | he
  · exact within_bool _ _
  · exact within_str _ _
  · exact (within_map _ within_range).mono (by decide)
  · exact (within_map _ within_function).mono (by decide)
  · exact within_map _ within_branch
  · exact within_map _ fun v => within_num 4 v
  · exact within_map _ fun v => within_num 4 v
  · exact within_map _ fun v => within_vec v fun n => within_num 3 n
  · exact within_skipNone (fun m => within_map m fun v => within_vec v fun n => within_num 3 n) e he
  · exact within_skipNone (fun m => (within_sourceMap m).mono (by decide)) e he

/-- What is written is read back. -/
theorem load_save {c : FileCoverage} (hk : c.Keyed) (hf : c.Fits) : load (save c) = some c := by
  have := within_coverage c
  unfold load save
  rw [parse_text _ this.1 (Nat.lt_of_le_of_lt this.2 (by decide))]
  exact coverage_tree hk hf

/-- The hash of the data, without going through strings. -/
theorem hash_save (c : FileCoverage) :
    SipHash.hash (save c) = SipHash.sip (SipHash.bytes (print (coverageTree c)) ++ [0xff]) := by
  unfold SipHash.hash save text
  rw [String.toList_ofList]

theorem dataHash_of {c : FileCoverage} {n : Nat}
    (h : SipHash.sip (SipHash.bytes (print (coverageTree c)) ++ [0xff]) = n) : Template.dataHash c = toString n := by
  unfold Template.dataHash
  rw [hash_save, h]

end Verif.Serde
