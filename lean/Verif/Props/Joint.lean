import Mathlib.Data.List.Forall2
import Verif.Lemmas.Perform
import Verif.Props.EndToEnd
/-
C45, with the executions taking place in the realm: what the instances of a file do there, while the realm lives, is what the report
tells.
-/
namespace Verif
open Node Visitor Sem Build Runtime Js Template

section
variable {cx : Ctx} {fuel : Nat} {path : String} {sm : Option SourceMap} {p p' : Node} {cov : SourceCoverage}

/-- The counters of an instrumented program have cells. -/
theorem site_counted (hc : Clean p) (hr : instrument cx fuel path sm p = .ok (p', cov))
    (hd : cx.reportLogic = false ∨ p.any (· = .assignPat) = false) {c : Counter} (h : c ∈ p'.sites) : cov.inner.count c = some 0 := by
  have h1 := C17_no_dangling_partial hc hr hd c h
  cases c with
  | bT id arm =>
    rw [← h1]
    show (cov.inner.bT.bind _).bind _ = cov.inner.bT.bind _
    cases cov.inner.bT <;> rfl
  | _ => exact h1

/-- What an instance of the file did in a realm is a complete execution, and the instance hit its counters. -/
theorem ran_hits {w : World} (hc : Clean p) (hr : instrument cx fuel path sm p = .ok (p', cov))
    (hd : cx.reportLogic = false ∨ p.any (· = .assignPat) = false) {covFn gcv : String} {st : State} {r : Realm} {pre es : List Event}
    (hfirst : ∀ j, Event.load j ∈ pre → j.path ≠ path) (hsame : SameHash path (dataHash cov.inner) es)
    {V A : Type} {solid : V → Bool} {k : Nat} {tr : List (Ev V A)}
    (h : Ran w gcv st path solid p' r (pre ++ .load (emit covFn gcv path cov.inner) :: es) k tr) :
    Complete solid p' tr ∧ hitsOn k (pre ++ .load (emit covFn gcv path cov.inner) :: es) = increments tr := by
  obtain ⟨r1, es1, es2, o, o', h1, h2, h3, h4, h5, h6, h7⟩ := h
  obtain ⟨g1, -, g2⟩ := h5.lives fun c hcs => cells_of_loaded (i := emit covFn gcv path cov.inner) hfirst hsame h1 h3
    (by rw [show (emit covFn gcv path cov.inner).data.count c = some 0 from site_counted hc hr hd hcs]; rfl)
  exact ⟨⟨o, o', g1, h6, h7⟩, by rw [h1, hitsOn_append, h4, g2]; rfl⟩

/-- C45, for executions in the realm. A file is loaded, as often as one likes and beside others, and each of its instances executes the
instrumented program in the realm, the code of the program doing as it likes apart from the coverage data. The report that is written and loaded
tells about these executions. -/
theorem C45_performed_partial (w : World) (hc : Clean p) (hr : instrument cx fuel path sm p = .ok (p', cov)) (hf : cov.inner.Fits)
    (hd : cx.reportLogic = false ∨ p.any (· = .assignPat) = false) {covFn gcv : String} {st : State} (hp : Pristine gcv st)
    {V A : Type} {solid : V → Bool} (trs : List (List (Ev V A))) (hn : ∀ k, (trs.map fun tr => Sem.counted k tr).sum < 2 ^ 32)
    {r : Realm} (pre es : List Event) (hfirst : ∀ j, Event.load j ∈ pre → j.path ≠ path)
    (hsame : SameHash path (dataHash cov.inner) es)
    (hl : Lives w gcv (.new st) .empty r (pre ++ .load (emit covFn gcv path cov.inner) :: es)) (hno : NoHooks r.st.heap)
    (hx : List.Forall₂ (fun k tr => Ran w gcv st path solid p' r (pre ++ .load (emit covFn gcv path cov.inner) :: es) k tr)
      (instancesOf path (pre ++ .load (emit covFn gcv path cov.inner) :: es)) trs) :
    ∃ ps a, registry gcv r.st = some ps ∧ ps.get path = some (.data (.ref a)) ∧
      ∀ o, Writes r.st.heap [] (.ref a) o → ∃ d c, o = some d ∧ Serde.coverage d = some c ∧
        (Json.whole d = true → Json.height d < 128 → Serde.load (Json.text d) = some c) ∧ Tells solid p' cov.inner trs c := by
  have h1 : ∀ tr ∈ trs, Complete solid p' tr := by
    intro tr htr
    obtain ⟨i, hi, rfl⟩ := List.getElem_of_mem htr
    exact (ran_hits hc hr hd hfirst hsame (hx.get (by rw [hx.length_eq]; exact hi) hi)).1
  refine C45_partial w hr hf covFn gcv st hp V A solid trs h1 hn r pre es hfirst hsame hl hno ?_
  refine (hitsOf_instances (hl.keeps hp.proto (Kept.start hp)).1).trans (List.Perm.of_eq ?_)
  refine congrArg List.flatten (List.ext_getElem (by rw [List.length_map, List.length_map]; exact hx.length_eq) fun i h2 h3 => ?_)
  rw [List.getElem_map, List.getElem_map]
  rw [List.length_map] at h2 h3
  exact (ran_hits hc hr hd hfirst hsame (hx.get h2 h3)).2

theorem raw_of_clean (hc : Clean p) {rl : Bool} (h : rl = false ∨ p.any (· = .taggedTpl) = false) : Raw rl p := by
  induction p using Node.ind with
  | h k sp cs ih =>
    unfold Clean at hc
    rw [any_mk, Bool.or_eq_false_iff, List.any_eq_false] at hc h
    refine raw_mk.2 ⟨?_, fun c hcs => ih c hcs (Bool.eq_false_iff.2 (hc.2 c hcs)) (h.imp_right fun h => Bool.eq_false_iff.2 (h.2 c hcs))⟩
    cases k with
    | temp a => exact hc.1
    | taggedTpl =>
      rcases h with h | h
      · exact h
      · exact absurd h.1 (by decide)
    | _ => rfl

/-- Whatever the executions of the instrumented program are, there is a realm in which instances of the file execute it in these ways. -/
theorem C45_performable_partial (w : World) (hc : Clean p) (hr : instrument cx fuel path sm p = .ok (p', cov))
    (hd : cx.reportLogic = false ∨ p.any (· = .assignPat) = false) (ht : cx.reportLogic = false ∨ p.any (· = .taggedTpl) = false)
    {covFn gcv : String} {st : State} (hp : Pristine gcv st)
    (hfn : covFn ∉ ["path", "hash", "global", "gcv", "coverageData", "coverage", "actualCoverage", "Array", "Object"])
    (hpath : path ≠ "__proto__") {V A : Type} {solid : V → Bool} (trs : List (List (Ev V A))) (hx : ∀ tr ∈ trs, Complete solid p' tr)
    (hne : trs ≠ []) :
    ∃ r es, Lives w gcv (.new st) .empty r (.load (emit covFn gcv path cov.inner) :: es) ∧ SameHash path (dataHash cov.inner) es ∧
      List.Forall₂ (fun k tr => Ran w gcv st path solid p' r (.load (emit covFn gcv path cov.inner) :: es) k tr)
        (instancesOf path (.load (emit covFn gcv path cov.inner) :: es)) trs ∧
      ∀ a, a < st.heap.length → a ≠ globalObj → r.st.heap[a]? = st.heap[a]? := by
  obtain ⟨n, h, o⟩ := outcome hr
  simp only [List.mem_cons, List.not_mem_nil, or_false, not_or] at hfn
  have hproper : Proper gcv (emit covFn gcv path cov.inner) := ⟨rfl, by
    simp only [List.mem_cons, List.not_mem_nil, or_false, not_or]
    exact ⟨hfn.1, hfn.2.1, hfn.2.2.1, hfn.2.2.2.1, hfn.2.2.2.2.1, hfn.2.2.2.2.2.1, hfn.2.2.2.2.2.2.1⟩, hpath, o.finished.keyed⟩
  have htidy : All Sem.Tidy p' := tidy_all (Trim.tidy (trim_instrument (raw_of_clean hc ht) hr))
  obtain ⟨r, es', k1, k2, k3, k4, -, k6, k7⟩ := performed_all (w := w) hp hproper hfn.2.2.2.2.2.2.2 htidy
    (fun c hcs => by
      rw [show (emit covFn gcv path cov.inner).data.count c = some 0 from site_counted hc hr hd hcs]
      rfl) trs hx (.stay _ _) (Kept.start hp) nofun (.inl rfl)
  obtain ⟨es, rfl⟩ := k7 hne
  refine ⟨r, es, k1, fun j hj _ => by rw [k2 j (List.mem_cons_of_mem _ hj)]; rfl, ?_, fun a h1 h2 => k6 a h1 h2 id⟩
  have k3 : pathsAfter [] (.load (emit covFn gcv path cov.inner) :: es) = List.replicate trs.length path := k3
  have hin : instancesOf path (.load (emit covFn gcv path cov.inner) :: es) = List.range trs.length := by
    unfold instancesOf
    rw [k3, List.length_replicate, List.filter_eq_self]
    intro j hj
    rw [List.getElem?_replicate, if_pos (List.mem_range.1 hj)]
    exact decide_eq_true rfl
  rw [hin, List.forall₂_iff_get]
  refine ⟨List.length_range, fun j h1 h2 => ?_⟩
  have := k4 j _ (List.getElem?_eq_getElem h2)
  simp only [List.get_eq_getElem, List.getElem_range]
  rw [show (pathsAfter [] []).length + j = j from Nat.zero_add j] at this
  exact this

/-- C45 forwards, in the realm. For any executions of the source program, observed until their end and with less than 2^32 events, there is a
realm in which instances of the instrumented file are executed with the same visible events; whatever `JSON.stringify` then writes for the
file, istanbul-oxide loads it as a report that tells about these executions. -/
theorem C45_source_performed_partial (w : World) (hc : Clean p) (hU : UnnamedFields p) (hF : FewDirectives p)
    (hr : instrument cx fuel path sm p = .ok (p', cov)) (hf : cov.inner.Fits)
    (hd : cx.reportLogic = false ∨ p.any (· = .assignPat) = false) (ht : cx.reportLogic = false ∨ p.any (· = .taggedTpl) = false)
    {covFn gcv : String} {st : State} (hp : Pristine gcv st)
    (hfn : covFn ∉ ["path", "hash", "global", "gcv", "coverageData", "coverage", "actualCoverage", "Array", "Object"])
    (hpath : path ≠ "__proto__") {p0 p2 : IndexMap String Cell} {c0 c2 : Cls} (h0 : st.heap[objectProto]? = some ⟨c0, none, p0⟩)
    (h2 : st.heap[arrayProto]? = some ⟨c2, some objectProto, p2⟩) (t0 : p0.get "toJSON" = none) (t2 : p2.get "toJSON" = none)
    {V A : Type} {solid : V → Bool} (trs : List (List (Ev V A))) (hx : ∀ tr ∈ trs, Complete solid p tr) (hne : trs ≠ [])
    (hlen : (trs.map fun tr => tr.length + 1).sum < 2 ^ 32) :
    ∃ trs' : List (List (Ev V A)), trs'.map visible = trs ∧
      ∃ r es ps a, Lives w gcv (.new st) .empty r (.load (emit covFn gcv path cov.inner) :: es) ∧ NoHooks r.st.heap ∧
        List.Forall₂ (fun k tr => Ran w gcv st path solid p' r (.load (emit covFn gcv path cov.inner) :: es) k tr)
          (instancesOf path (.load (emit covFn gcv path cov.inner) :: es)) trs' ∧
        registry gcv r.st = some ps ∧ ps.get path = some (.data (.ref a)) ∧
        ∀ o, Writes r.st.heap [] (.ref a) o → ∃ d c, o = some d ∧ Serde.coverage d = some c ∧
          (Json.whole d = true → Json.height d < 128 → Serde.load (Json.text d) = some c) ∧ Tells solid p' cov.inner trs' c := by
  obtain ⟨trs', hv, hx', hn⟩ := source_runs hc hU hF hr trs hx hlen
  have hne' : trs' ≠ [] := fun h => hne (by rw [← hv, h]; rfl)
  obtain ⟨r, es, k1, k2, k3, k4⟩ := C45_performable_partial w hc hr hd ht hp hfn hpath trs' hx' hne'
  have hno : NoHooks r.st.heap := by
    refine noHooks_of (c0 := c0) (c2 := c2) ?_ ?_ t0 t2
    · rw [k4 objectProto (List.getElem?_eq_some_iff.1 h0).1 (by decide)]
      exact h0
    · rw [k4 arrayProto (List.getElem?_eq_some_iff.1 h2).1 (by decide)]
      exact h2
  obtain ⟨ps, a, m1, m2, m3⟩ := C45_performed_partial w hc hr hf hd hp trs' hn [] es nofun k2 k1 hno k3
  exact ⟨trs', hv, r, es, ps, a, k1, hno, k3, m1, m2, m3⟩

end

/-! ### Concrete cases -/

/-- The report of `f() && g()` with truthiness counters. -/
def bothTruthsReport : FileCoverage := { FileCoverage.empty "/f.js" true with
  statementMap := [(0, logic.range (at' 1))]
  s := [(0, 0)]
  branchMap := [(0, ⟨some (logic.range (at' 2)), .binaryExpr, [logic.range (at' 3), logic.range (at' 5)], some 2⟩)]
  b := [(0, [0, 0])]
  bT := some [(0, [0, 0])] }

/-- The file with `f() && g()`, with truthiness counters, is loaded twice in a realm and executed there; in the second execution `f` returns 0. Whatever
is then written and loaded has the count 2 for the statement. -/
example : ∃ p' cov trs', run logic bothCalls = .ok (p', cov) ∧ trs'.map visible = [bothCallsTrace, oneCallTrace] ∧
    ∃ r es ps a, Lives noWorld "__coverage__" (.new freshRealm) .empty r (.load (emit "cov_1" "__coverage__" "/f.js" cov.inner) :: es) ∧
      List.Forall₂ (fun k tr => Ran noWorld "__coverage__" freshRealm "/f.js" (fun v => v != 0) p' r
        (.load (emit "cov_1" "__coverage__" "/f.js" cov.inner) :: es) k tr)
        (instancesOf "/f.js" (.load (emit "cov_1" "__coverage__" "/f.js" cov.inner) :: es)) trs' ∧
      registry "__coverage__" r.st = some ps ∧ ps.get "/f.js" = some (.data (.ref a)) ∧
      ∀ o, Writes r.st.heap [] (.ref a) o → ∃ d c, o = some d ∧ Serde.coverage d = some c ∧ c.s.get 0 = some 2 := by
  have h : yields (run logic bothCalls) (fun _ c => c = bothTruthsReport) = true := by decide +kernel
  obtain ⟨p', cov, h1, h2⟩ := of_yields h
  have h2 : cov.inner = bothTruthsReport := of_decide_eq_true h2
  have hc : Clean bothCalls := by unfold Clean; decide +kernel
  have hf : cov.inner.Fits := by
    rw [h2]
    refine ⟨?_, ?_, ?_, ?_, ?_, ?_, ?_, ?_⟩ <;>
      simp [bothTruthsReport, FileCoverage.empty, IndexMap.Fits, Range.Fits, Location.Fits, Branch.Fits, Ctx.range, plain, logic, at']
  obtain ⟨trs', k1, r, es, ps, a, k2, -, k3, k4, k5, k6⟩ := C45_source_performed_partial noWorld hc (by decide +kernel)
    (by decide +kernel) h1 hf (.inr (by decide +kernel)) (.inr (by decide +kernel)) freshRealm_pristine (covFn := "cov_1") (by decide)
    (by decide) rfl rfl rfl rfl [bothCallsTrace, oneCallTrace] (solid := fun v => v != 0) (by
      intro tr htr
      simp only [List.mem_cons, List.not_mem_nil, or_false] at htr
      rcases htr with rfl | rfl
      · exact ⟨_, _, bothCalls_exec, nofun, nofun⟩
      · exact ⟨_, _, oneCall_exec, nofun, nofun⟩) (by simp) (by decide +kernel)
  refine ⟨p', cov, trs', h1, k1, r, es, ps, a, k2, k3, k4, k5, fun o ho => ?_⟩
  obtain ⟨d, c, m1, m2, -, m3⟩ := k6 o ho
  refine ⟨d, c, m1, m2, ?_⟩
  obtain ⟨id, s1, s2⟩ := C22_items_partial hc (by decide +kernel) (.inl rfl) h1
    (expr 1 (bin 2 .and (call 3 (ident 4 "f") []) (call 5 (ident 6 "g") [])))
    (List.mem_filter.2 ⟨List.mem_cons_self .., by decide +kernel⟩) (by decide +kernel) (at' 1) (by decide +kernel)
  have hid : id = 0 := by
    have := s1.1
    rw [h2] at this
    rcases List.mem_singleton.1 (IndexMap.mem_of_get this)
    rfl
  subst hid
  refine (m3.begun _ _ s2 (C22_start_partial.1 _ _ s1)).trans ?_
  rw [show (trs'.map fun tr => began (tag (expr 1 (bin 2 .and (call 3 (ident 4 "f") []) (call 5 (ident 6 "g") [])))) (visible tr)) =
    (trs'.map visible).map (began (tag (expr 1 (bin 2 .and (call 3 (ident 4 "f") []) (call 5 (ident 6 "g") []))))) by
    rw [List.map_map]; rfl, k1]
  decide +kernel

end Verif
