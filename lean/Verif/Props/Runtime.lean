import Verif.Lemmas.Accounts
/-
C30. What the emitted coverage function does at run time, for every history of loads and counter hits.

The realm is any realm without a coverage object in which `Object.prototype` is unmodified (`Pristine`); files
are loaded as modules, each in a scope of its own, and agree on the coverage variable (`Proper`).
-/
namespace Verif
open Runtime Js Template

/-- A realm with the built-ins only. -/
def freshRealm : State :=
  ⟨[⟨.plain, none, [("constructor", .data (.native "Object")), ("toString", .data (.native "toString"))]⟩,
    ⟨.plain, some objectProto, []⟩, ⟨.array, some objectProto, []⟩, ⟨.plain, some objectProto, []⟩], [], []⟩

/-- No user code. -/
def noWorld : World := fun _ => M.fail .thrown

theorem freshRealm_pristine : Pristine "__coverage__" freshRealm := by
  refine ⟨⟨_, rfl, rfl, ?_⟩, ⟨_, rfl, rfl⟩, by decide, by decide⟩
  intro k c hk
  simp only [IndexMap.get] at hk
  split at hk
  · injection hk with hk
    exact ⟨_, hk.symm, rfl⟩
  · split at hk
    · injection hk with hk
      exact ⟨_, hk.symm, rfl⟩
    · cases hk

theorem Runtime.Inv.start {gcv : String} {st : State} (h : Pristine gcv st) : Inv gcv st.heap st.frames [] .empty [] := by
  refine ⟨h.object, h.size, rfl, ?_, ?_, ?_, Or.inl ⟨rfl, h.global⟩, rfl, ?_⟩
  · intro n x e hx
    cases hx
  · intro n m x y _ hx
    cases hx
  · intro x hx
    cases hx
  · intro k inst n hk
    cases hk

theorem Runtime.Held.shows {st : State} {x : Box} {e : Input × FileCoverage} (h : Held st.heap x e) :
    Shows st (.ref x.root) e.2 e.1.magic e.1.hash := by
  obtain ⟨ps, m, h1, h2, h3, h4, _⟩ := h
  obtain ⟨c1, c2, c3⟩ := coverage_tree e.1.magic e.1.hash e.2 false (by simp)
  exact ⟨x.root, ps, x.lo, m, _, rfl, h1, h4, c2, c3, c1⟩

/-- The coverage object has entries for the paths the books have. -/
theorem Runtime.Inv.listed {gcv : String} {st : State} {insts : List Instance} {b : Books} {boxes : List Box}
    (h2 : Inv gcv st.heap st.frames insts b boxes) :
    ∀ path ps, registry gcv st = some ps → ((ps.get path).isSome ↔ (b.at path).isSome) := by
  intro path ps hr
  rcases h2.reg with ⟨_, gs, r2, r3⟩ | ⟨R, ps', ⟨⟨gs, r1, r2⟩, r3, r4⟩, r5, r6⟩
  · unfold registry at hr
    simp only [r2, r3] at hr
    cases hr
  · unfold registry at hr
    simp only [r1, r2, r3, Option.map_some] at hr
    injection hr with hr
    subst hr
    rcases entries_get r6 path with ⟨k1, k2⟩ | ⟨n', x, k1, k2, k3⟩
    · rw [k2]
      unfold Books.at
      rw [k1]
      simp
    · rw [k3]
      unfold Books.at
      simp only [k1]
      have hn : n' < b.sets.length := by rw [← h2.len]; exact lt_of_getElem? k2
      rw [List.getElem?_eq_getElem hn]
      simp

/-- C30. The emitted code keeps the books: every history runs to its end without an exception and without
running user code, the coverage object has entries for exactly the paths that were loaded, and each entry shows
the data the books have for it. -/
theorem C30_books_partial (w : World) {gcv : String} {st : State} (hp : Pristine gcv st)
    (es : List Event) (ha : Books.empty.AllowsAll gcv es) :
    ∃ st' insts, play w [] es st = .ok (st', insts) ∧ st'.log = st.log ∧
      (∀ path i c, (Books.empty.after es).at path = some (i, c) → Reports gcv st' path i c) ∧
      (∀ path ps, registry gcv st' = some ps → ((ps.get path).isSome ↔ ((Books.empty.after es).at path).isSome)) := by
  obtain ⟨H', F', insts', boxes', h1, h2, _⟩ := (Inv.start hp).play (w := w) (L := st.log) hp.proto es ha
  refine ⟨⟨H', F', st.log⟩, insts', h1, rfl, ?_, ?_⟩
  · intro path i c hat
    unfold Books.at at hat
    split at hat
    · cases hat
    rename_i n hn
    rcases h2.reg with ⟨r1, _⟩ | ⟨R, ps, ⟨⟨gs, r1, r2⟩, r3, r4⟩, r5, r6⟩
    · rw [r1] at hn
      cases hn
    · rcases entries_get r6 path with ⟨k1, _⟩ | ⟨n', x, k1, k2, k3⟩
      · rw [hn] at k1
        cases k1
      · rw [hn] at k1
        injection k1 with k1
        subst k1
        refine ⟨ps, .ref x.root, ?_, k3, ?_⟩
        · unfold registry
          simp only [r1, r2, r3, Option.map_some]
        · exact Held.shows (st := ⟨H', F', st.log⟩) (h2.held n x _ k2 hat)
  · exact h2.listed (st := ⟨H', F', st.log⟩)

/-- The books of a file that is loaded with one hash only. -/
theorem books_accumulated (pre es : List Event) (i : Input) (hfirst : ∀ j, Event.load j ∈ pre → j.path ≠ i.path)
    (hsame : SameHash i.path i.hash es) : Single i.path i.hash (Books.empty.after (pre ++ .load i :: es)) ∧
      (Books.empty.after (pre ++ .load i :: es)).at i.path
        = some (i, i.data.hits (hitsOf i.path [] (pre ++ .load i :: es))) := by
  rw [after_append]
  have hs := Sane.empty.after pre
  have hnone : (Books.empty.after pre).at i.path = none := by
    rcases at_none pre Sane.empty hfirst with h | h
    · exact h
    · cases h
  have hpaths : ∀ (l : List Event) (ps : List String), (∀ j, Event.load j ∈ l → j.path ≠ i.path) →
      i.path ∉ ps → i.path ∉ pathsAfter ps l ∧
        hitsOf i.path ps (l ++ .load i :: es) = hitsOf i.path (pathsAfter ps l ++ [i.path]) es := by
    intro l
    induction l with
    | nil =>
      intro ps _ hps
      exact ⟨hps, rfl⟩
    | cons e l ih =>
      intro ps hl hps
      have hl' : ∀ j, Event.load j ∈ l → j.path ≠ i.path := fun j hj => hl j (List.mem_cons_of_mem _ hj)
      cases e with
      | load j =>
        have hj := hl j List.mem_cons_self
        exact ih (ps ++ [j.path]) hl' (by simp only [List.mem_append, List.mem_singleton, not_or]; exact ⟨hps, fun e => hj e.symm⟩)
      | hit n c =>
        have hn : ps[n]? ≠ some i.path := fun e => hps (List.mem_of_getElem? e)
        simp only [List.cons_append, hitsOf, if_neg hn, pathsAfter]
        exact ih ps hl' hps
  have hfresh : ((Books.empty.after pre).load i).at i.path = some (i, i.data.hits []) :=
    at_load_fresh fun e he => by rw [hnone] at he; cases he
  have hsingle : Single i.path i.hash ((Books.empty.after pre).load i) := by
    have hk : (Books.empty.after pre).kept i = none := by
      cases hk : (Books.empty.after pre).kept i with
      | none => rfl
      | some n =>
        obtain ⟨k1, e, k2, _⟩ := kept_some hk
        unfold Books.at at hnone
        rw [k1] at hnone
        simp only at hnone
        rw [k2] at hnone
        cases hnone
    rw [load_none hk]
    intro n e he hep
    rcases getElem?_push he with he | ⟨rfl, rfl⟩
    · refine absurd hep (sets_loaded pre (b := .empty) ?_ hfirst n e he)
      intro n e he
      cases he
    · exact ⟨by rw [IndexMap.get_insert, if_pos rfl], rfl⟩
  have := accumulate es (hs.load i) hsingle hsame hfresh
  rw [(hpaths pre [] hfirst (by simp)).2]
  exact this

theorem at_accumulated (pre es : List Event) (i : Input) (hfirst : ∀ j, Event.load j ∈ pre → j.path ≠ i.path)
    (hsame : SameHash i.path i.hash es) : (Books.empty.after (pre ++ .load i :: es)).at i.path
      = some (i, i.data.hits (hitsOf i.path [] (pre ++ .load i :: es))) :=
  (books_accumulated pre es i hfirst hsame).2

/-- C30. As long as the file at a path is loaded with the same hash, its counts accumulate: after any history,
however often and between whatever other loads and hits it was loaded, its entry shows the initial data of its
first load with all hits of all its instances added. -/
theorem C30_counts_accumulate_partial (w : World) {gcv : String} {st : State} (hp : Pristine gcv st)
    (pre es : List Event) (i : Input) (hfirst : ∀ j, Event.load j ∈ pre → j.path ≠ i.path)
    (hsame : SameHash i.path i.hash es) (ha : Books.empty.AllowsAll gcv (pre ++ .load i :: es)) :
    ∃ st' insts, play w [] (pre ++ .load i :: es) st = .ok (st', insts) ∧
      Reports gcv st' i.path i (i.data.hits (hitsOf i.path [] (pre ++ .load i :: es))) := by
  obtain ⟨st', insts, h1, _, h3, _⟩ := C30_books_partial w hp _ ha
  exact ⟨st', insts, h1, h3 _ _ _ (at_accumulated pre es i hfirst hsame)⟩

/-- One more event, in terms of the books. -/
theorem step_reports (w : World) {gcv : String} {st : State} (hp : Pristine gcv st) (es : List Event) (e : Event)
    (ha : Books.empty.AllowsAll gcv (es ++ [e])) {st1 : State} {insts1 : List Instance}
    (h1 : play w [] es st = .ok (st1, insts1)) :
    ∃ st2 insts2, playOne w insts1 e st1 = .ok (st2, insts2) ∧ st2.log = st1.log ∧
      (∀ path i c, Reports gcv st1 path i c → ∃ i', (Books.empty.after es).at path = some (i', c) ∧
        i'.magic = i.magic ∧ i'.hash = i.hash) ∧
      ∀ path i c, ((Books.empty.after es).step e).at path = some (i, c) → Reports gcv st2 path i c := by
  obtain ⟨st1', insts1', a1, a2, a3, a4⟩ := C30_books_partial w hp es (allows_append.1 ha).1
  rw [h1] at a1
  injection a1 with a1
  injection a1 with a1 a1'
  subst a1 a1'
  obtain ⟨st2, insts2, b1, b2, b3, _⟩ := C30_books_partial w hp _ ha
  rw [play_snoc h1] at b1
  refine ⟨st2, insts2, b1, b2.trans a2.symm, ?_, ?_⟩
  · intro path i c hr
    obtain ⟨ps, v, r1, r2, r3⟩ := id hr
    have := (a4 path ps r1).1 (by rw [r2]; rfl)
    obtain ⟨⟨i', c'⟩, hat⟩ := Option.isSome_iff_exists.1 this
    obtain ⟨rfl, d2, d3⟩ := reports_det (a3 _ _ _ hat) hr
    exact ⟨i', hat, d2, d3⟩
  · intro path i c hat
    refine b3 path i c ?_
    rw [after_append]
    exact hat

/-- C30. Neither loading a file nor hitting a counter of an instance of it changes what is reported for other
paths. -/
theorem C30_other_paths_partial (w : World) {gcv : String} {st : State} (hp : Pristine gcv st)
    (es : List Event) (e : Event) (ha : Books.empty.AllowsAll gcv (es ++ [e])) (path : String)
    (hother : e.path (pathsAfter [] es) ≠ some path)
    {st1 : State} {insts1 : List Instance} (h1 : play w [] es st = .ok (st1, insts1)) :
    ∃ st2 insts2, playOne w insts1 e st1 = .ok (st2, insts2) ∧
      ∀ i c, Reports gcv st1 path i c → Reports gcv st2 path i c := by
  obtain ⟨st2, insts2, a1, _, a2, a3⟩ := step_reports w hp es e ha h1
  refine ⟨st2, insts2, a1, fun i c hr => ?_⟩
  obtain ⟨i', b1, b2, b3⟩ := a2 path i c hr
  have hs := Sane.empty.after es
  refine (a3 path i' c ?_).cast b2 b3
  cases e with
  | load i => exact (at_load_other hs fun e => hother (congrArg some e.symm)).trans b1
  | hit n c => exact (at_hit_other hs hother).trans b1

/-- C30. Loading a file again with the hash that is stored for its path changes nothing in what is reported for
the path: the counts are kept. -/
theorem C30_reload_keeps_partial (w : World) {gcv : String} {st : State} (hp : Pristine gcv st)
    (es : List Event) (i : Input) (ha : Books.empty.AllowsAll gcv (es ++ [.load i]))
    {st1 : State} {insts1 : List Instance} (h1 : play w [] es st = .ok (st1, insts1))
    {j : Input} {c : FileCoverage} (hr : Reports gcv st1 i.path j c) (hh : j.hash = i.hash) :
    ∃ st2 insts2, playOne w insts1 (.load i) st1 = .ok (st2, insts2) ∧ Reports gcv st2 i.path j c := by
  obtain ⟨st2, insts2, a1, _, a2, a3⟩ := step_reports w hp es _ ha h1
  obtain ⟨i', b1, b2, b3⟩ := a2 _ _ _ hr
  exact ⟨st2, insts2, a1, (a3 _ i' c (at_load_same b1 (b3.trans hh))).cast b2 b3⟩

/-- C30. Loading a file whose hash is not the one stored for its path, or whose path has no entry, installs its
initial data. -/
theorem C30_changed_resets_partial (w : World) {gcv : String} {st : State} (hp : Pristine gcv st)
    (es : List Event) (i : Input) (ha : Books.empty.AllowsAll gcv (es ++ [.load i]))
    {st1 : State} {insts1 : List Instance} (h1 : play w [] es st = .ok (st1, insts1))
    (hh : ∀ j c, Reports gcv st1 i.path j c → j.hash ≠ i.hash) :
    ∃ st2 insts2, playOne w insts1 (.load i) st1 = .ok (st2, insts2) ∧ Reports gcv st2 i.path i i.data := by
  obtain ⟨st2, insts2, a1, _, a2, a3⟩ := step_reports w hp es _ ha h1
  refine ⟨st2, insts2, a1, a3 _ i i.data (at_load_fresh fun e he => ?_)⟩
  obtain ⟨_, _, b1, _, b3, _⟩ := C30_books_partial w hp es (allows_append.1 ha).1
  rw [h1] at b1
  injection b1 with b1
  injection b1 with b1 b1'
  subst b1
  exact hh e.1 e.2 (b3 _ _ _ he)

/-! ### Concrete cases -/

/-- A file with one statement. -/
def oneStatement (path hash : String) : Input :=
  { covFn := "cov_1", coverageVariable := "__coverage__", path, magic := "m", hash,
    data := { FileCoverage.empty path false with
      statementMap := [(0, ⟨⟨1, 0⟩, ⟨1, 5⟩⟩)], s := [(0, 0)] } }

theorem oneStatement_proper (path hash : String) (hp : path ≠ "__proto__") :
    Proper "__coverage__" (oneStatement path hash) :=
  ⟨rfl, (by simp [oneStatement]), hp, ⟨by simp [oneStatement, IndexMap.NodupKeys, IndexMap.keys, FileCoverage.empty],
    .nil, .nil, by simp [oneStatement, IndexMap.NodupKeys, IndexMap.keys, FileCoverage.empty], .nil, .nil, fun m hm => by cases hm⟩⟩

/-- Two files with the same data, loaded, hit, and loaded again. -/
def twoFiles : List Event :=
  [.load (oneStatement "a.js" "1"), .hit 0 (.s 0), .load (oneStatement "b.js" "1"), .hit 1 (.s 0),
   .load (oneStatement "a.js" "1"), .hit 2 (.s 0), .hit 0 (.s 0)]

theorem twoFiles_allowed : Books.empty.AllowsAll "__coverage__" twoFiles :=
  ⟨oneStatement_proper _ _ (by decide), ⟨0, rfl, _, rfl, rfl⟩, oneStatement_proper _ _ (by decide),
   ⟨1, rfl, _, rfl, rfl⟩, oneStatement_proper _ _ (by decide), ⟨0, rfl, _, rfl, rfl⟩, ⟨0, rfl, _, rfl, rfl⟩, trivial⟩

/-- The counts of `a.js` add up to three over two loads. -/
example : ∃ st' insts, play noWorld [] twoFiles freshRealm = .ok (st', insts) ∧
    Reports "__coverage__" st' "a.js" (oneStatement "a.js" "1")
      { (oneStatement "a.js" "1").data with s := [(0, 3)] } := by
  have h := C30_counts_accumulate_partial noWorld freshRealm_pristine [] twoFiles.tail (oneStatement "a.js" "1")
    (fun _ h => by cases h)
    (fun i hi _ => by
      simp only [twoFiles, List.tail, List.mem_cons, List.not_mem_nil, Event.load.injEq, or_false, reduceCtorEq,
        false_or] at hi
      rcases hi with rfl | rfl <;> rfl)
    twoFiles_allowed
  exact h

/-- Loading `a.js` with another hash sets its counts back and leaves those of `b.js`. -/
example : ∃ st1 insts1 st2 insts2, play noWorld [] twoFiles freshRealm = .ok (st1, insts1) ∧
    playOne noWorld insts1 (.load (oneStatement "a.js" "2")) st1 = .ok (st2, insts2) ∧
    Reports "__coverage__" st1 "b.js" (oneStatement "b.js" "1")
      { (oneStatement "b.js" "1").data with s := [(0, 1)] } ∧
    Reports "__coverage__" st2 "b.js" (oneStatement "b.js" "1")
      { (oneStatement "b.js" "1").data with s := [(0, 1)] } ∧
    Reports "__coverage__" st2 "a.js" (oneStatement "a.js" "2") (oneStatement "a.js" "2").data := by
  have ha : Books.empty.AllowsAll "__coverage__" (twoFiles ++ [.load (oneStatement "a.js" "2")]) :=
    allows_append.2 ⟨twoFiles_allowed, oneStatement_proper _ _ (by decide), trivial⟩
  obtain ⟨st1, insts1, h1, _, h3, _⟩ := C30_books_partial noWorld freshRealm_pristine _ twoFiles_allowed
  have hb := h3 "b.js" (oneStatement "b.js" "1") { (oneStatement "b.js" "1").data with s := [(0, 1)] } rfl
  obtain ⟨st2, insts2, h4, h5⟩ := C30_changed_resets_partial noWorld freshRealm_pristine _ _ ha h1
    (fun j c hr => by
      have := (reports_det hr (h3 "a.js" (oneStatement "a.js" "1")
        { (oneStatement "a.js" "1").data with s := [(0, 3)] } rfl)).2.2
      rw [this]
      decide)
  obtain ⟨st2', insts2', h6, h7⟩ := C30_other_paths_partial noWorld freshRealm_pristine _ _ ha "b.js"
    (by decide) h1
  rw [h4] at h6
  injection h6 with h6
  injection h6 with h6 _
  subst h6
  exact ⟨st1, insts1, st2, insts2, h1, h4, hb, h7 _ _ hb, h5⟩

/-- Loading `b.js` once more keeps its count of one. -/
example : ∃ st1 insts1 st2 insts2, play noWorld [] twoFiles freshRealm = .ok (st1, insts1) ∧
    playOne noWorld insts1 (.load (oneStatement "b.js" "1")) st1 = .ok (st2, insts2) ∧
    Reports "__coverage__" st2 "b.js" (oneStatement "b.js" "1")
      { (oneStatement "b.js" "1").data with s := [(0, 1)] } := by
  have ha : Books.empty.AllowsAll "__coverage__" (twoFiles ++ [.load (oneStatement "b.js" "1")]) :=
    allows_append.2 ⟨twoFiles_allowed, oneStatement_proper _ _ (by decide), trivial⟩
  obtain ⟨st1, insts1, h1, _, h3, _⟩ := C30_books_partial noWorld freshRealm_pristine _ twoFiles_allowed
  have hb := h3 "b.js" (oneStatement "b.js" "1") { (oneStatement "b.js" "1").data with s := [(0, 1)] } rfl
  obtain ⟨st2, insts2, h4, h5⟩ := C30_reload_keeps_partial noWorld freshRealm_pristine _ _ ha h1
    hb rfl
  exact ⟨st1, insts1, st2, insts2, h1, h4, h5⟩

/-- C30 fails for a file whose path is `__proto__`: loading it makes a coverage object without any entry. The
assignment to `coverage["__proto__"]` sets the prototype of the coverage object to the data of the file. -/
theorem C30_proto_path_fails :
    ∃ st' insts, play noWorld [] [.load (oneStatement "__proto__" "1")] freshRealm = .ok (st', insts) ∧
      registry "__coverage__" st' = some [] ∧
      ∃ g r o d x, st'.heap[globalObj]? = some g ∧ g.props.get "__coverage__" = some (.data (.ref r)) ∧
        st'.heap[r]? = some o ∧ o.proto = some d ∧ st'.heap[d]? = some x ∧
        x.props.get "path" = some (.data (.str "__proto__")) := by
  have h : (match play noWorld [] [.load (oneStatement "__proto__" "1")] freshRealm with
      | .ok (st', _) => decide (registry "__coverage__" st' = some []) &&
        (match st'.heap[globalObj]? with
          | some g =>
            match g.props.get "__coverage__" with
            | some (.data (.ref r)) =>
              match st'.heap[r]? with
              | some o =>
                match o.proto with
                | some d =>
                  match st'.heap[d]? with
                  | some x => decide (x.props.get "path" = some (.data (.str "__proto__")))
                  | none => false
                | none => false
              | none => false
            | _ => false
          | none => false)
      | .error _ => false) = true := by decide +kernel
  split at h
  case h_2 => cases h
  rename_i st' insts hs
  rw [Bool.and_eq_true] at h
  obtain ⟨h1, h⟩ := h
  split at h
  case h_2 => cases h
  rename_i g hg
  split at h
  case h_2 => cases h
  rename_i r hr
  split at h
  case h_2 => cases h
  rename_i o ho
  split at h
  case h_2 => cases h
  rename_i d hd
  split at h
  case h_2 => cases h
  rename_i x hx
  exact ⟨st', insts, hs, of_decide_eq_true h1, g, r, o, d, x, hg, hr, ho, hd, hx, of_decide_eq_true h⟩

end Verif
