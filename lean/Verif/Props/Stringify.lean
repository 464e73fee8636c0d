import Verif.Lemmas.Leaves
import Verif.Props.Life
import Verif.Props.Serde
import Verif.Props.Template
/-
C43: coverage data that leaves the program arrives. What `JSON.stringify` writes for the coverage object of a running
program is loaded by `FileCoverage` as exactly the data that was counted.
-/
namespace Verif
open Runtime Js Template

/-- The files of a life are proper. -/
theorem Runtime.Lives.proper {w : World} {gcv : String} {r r' : Realm} {b : Books} {es : List Event}
    (h : Lives w gcv r b r' es) : ∀ i, Event.load i ∈ es → Proper gcv i := by
  induction h with
  | stay => intro i hi; cases hi
  | code _ _ ih => exact ih
  | load _ hp _ ih =>
    intro j hj
    rcases List.mem_append.1 hj with hj | hj
    · exact ih j hj
    · simp only [List.mem_singleton, Event.load.injEq] at hj
      subst hj
      exact hp
  | hit _ _ _ _ _ ih =>
    intro j hj
    rcases List.mem_append.1 hj with hj | hj
    · exact ih j hj
    · simp at hj
  | wrapper _ _ _ _ _ _ _ _ _ ih1 ih2 =>
    intro j hj
    rcases List.mem_append.1 hj with hj | hj
    · rcases List.mem_append.1 hj with hj | hj
      · exact ih1 j hj
      · exact ih2 j hj
    · split at hj <;> simp at hj

theorem empty_tidy : Tidy .empty := fun e he => by cases he

/-- `Arrives d c`: the tree `d` is loaded as the data `c`, with the tables in ascending order; and so is its text, unless it
is nested too deep or has other numbers than natural numbers in it (in temporaries). -/
def Arrives (d : Data) (c : FileCoverage) : Prop :=
  ∃ c', Serde.coverage d = some c' ∧ c'.Same c ∧ c'.Ordered ∧
    (Json.whole d = true → Json.height d < 128 → Serde.load (Json.text d) = some c')

theorem arrives {d : Data} {c c' : FileCoverage} (h : Serde.coverage d = some c') (hs : c'.Same c) (ho : c'.Ordered) :
    Arrives d c := by
  refine ⟨c', h, hs, ho, fun h1 h2 => ?_⟩
  unfold Serde.load
  rw [Json.parse_text d h1 h2]
  exact h

/-- What is written for a data set arrives. -/
theorem Runtime.Held.arrives {H : List Obj} {x : Box} {e : Input × FileCoverage} {s : List Nat} (h : Held H x e)
    (hn : NoHooks H) (hs : ∀ a ∈ s, a < x.lo ∨ x.hi ≤ a) (hk : e.2.Keyed) (hf : e.2.Fits)
    (hl : ∀ b ∈ e.2.branchMap.values, b.locations ≠ []) {o : Option Data} (hw : Writes H s (.ref x.root) o) :
    ∃ d, o = some d ∧ Arrives d e.2 := by
  obtain ⟨fs, rfl, hfs⟩ := h.leaves hn hs hw
  refine ⟨_, rfl, Verif.arrives ?_ (FileCoverage.arranged_same hk) (FileCoverage.arranged_ordered hk hf)⟩
  rw [Serde.coverage_known hfs]
  refine Serde.coverage_emitted _ _ (FileCoverage.arranged_keyed hk) (FileCoverage.arranged_fits hf) fun b hb => ?_
  obtain ⟨y, hy, rfl⟩ := List.mem_map.1 hb
  exact hl _ (List.mem_map.2 ⟨y, IndexMap.arranged_perm.mem_iff.1 hy, rfl⟩)

/-- C43. At any time of the life of a realm, the entry of a file in the coverage object is an object, and whatever
`JSON.stringify` writes for it is loaded as the data the books have for the file; and `JSON.stringify` does write
something exactly if it can write the values that truthiness wrappers left behind. -/
theorem C43_entry_partial (w : World) {gcv : String} {st : State} (hp : Pristine gcv st) {r : Realm} {es : List Event}
    (h : Lives w gcv (.new st) .empty r es) (hn : NoHooks r.st.heap) {path : String} {i : Input} {c : FileCoverage}
    (hat : (Books.empty.after es).at path = some (i, c)) (hf : c.Fits)
    (hl : ∀ b ∈ i.data.branchMap.values, b.locations ≠ []) :
    ∃ ps a, registry gcv r.st = some ps ∧ ps.get path = some (.data (.ref a)) ∧
      (∀ o, Writes r.st.heap [] (.ref a) o → ∃ d, o = some d ∧ Arrives d c) ∧
      ((∃ d, Writes r.st.heap [] (.ref a) (some d)) ↔
        ∀ qs k v, r.st.heap[a]? = some ⟨.plain, some objectProto, qs⟩ → (k, Cell.data v) ∈ qs → k ∉ fieldNames →
          ∃ o, Writes r.st.heap [a] v o) := by
  obtain ⟨_, boxes, hk, _⟩ := h.keeps hp.proto (Kept.start hp)
  obtain ⟨hkc, hbm⟩ := (empty_tidy.after es h.proper).at hat
  obtain ⟨R, ps, x, ⟨⟨gs, g1, g2⟩, g3, _⟩, h2, h3, _⟩ := hk.inv.entry hat
  refine ⟨ps, x.root, ?_, h2, fun o hw => ?_, ?_, fun ht => ?_⟩
  · unfold registry
    simp only [g1, g2, g3, Option.map_some]
  · exact h3.arrives hn (fun a ha => by cases ha) hkc hf (by rw [hbm]; exact hl) hw
  · rintro ⟨d, hd⟩ qs k v hqs hk _
    obtain ⟨qs', k1, _, _, k4⟩ := h3.writes hn (s := []) (fun a ha => by cases ha)
    rw [hqs] at k1
    injection k1 with k1
    injection k1 with _ _ k1
    subst k1
    obtain ⟨fs, _, hfs⟩ := (k4 _).1 hd
    obtain ⟨v', o, hv, ho⟩ := writesAll_each hfs (k, .data v) ((arrange_perm _ _).mem_iff.2 hk)
    injection hv with hv
    subst hv
    exact ⟨o, ho⟩
  · exact h3.can hn (fun a ha => by cases ha) ht

theorem text_of {gcv : String} {r : Realm} {es : List Event} {boxes : List Box}
    (hk : Runtime.Kept gcv r (Books.empty.after es) boxes) (hprop : ∀ j, Event.load j ∈ es → Proper gcv j) (hn : NoHooks r.st.heap)
    {path : String} {i : Input} {c : FileCoverage}
    (hat : (Books.empty.after es).at path = some (i, c)) (hf : c.Fits)
    (hb : c.bT = none ∨ ∀ x ∈ boxes, Spare r.st.heap x) (hl : ∀ b ∈ i.data.branchMap.values, b.locations ≠ []) :
    ∃ ps a d c', registry gcv r.st = some ps ∧ ps.get path = some (.data (.ref a)) ∧
      (∀ o, Writes r.st.heap [] (.ref a) o ↔ o = some d) ∧ Serde.load (Json.text d) = some c' ∧ c'.Same c ∧ c'.Ordered := by
  obtain ⟨hkc, hbm⟩ := (empty_tidy.after es hprop).at hat
  obtain ⟨R, ps, x, ⟨⟨gs, g1, g2⟩, g3, _⟩, h2, h3, hx⟩ := hk.inv.entry hat
  have hiff := h3.bare hn (s := []) (fun a ha => by cases ha) (hb.imp_right fun h => h x hx)
  obtain ⟨d, hd, c', k1, k2, k2', k3⟩ := h3.arrives hn (s := []) (fun a ha => by cases ha) hkc hf
    (by rw [hbm]; exact hl) ((hiff _).2 rfl)
  injection hd with hd
  subst hd
  have hw := Serde.within_emitted i.magic i.hash c.arranged
  refine ⟨ps, x.root, _, c', ?_, h2, hiff, k3 hw.1 (Nat.lt_of_le_of_lt hw.2 (by decide)), k2, k2'⟩
  unfold registry
  simp only [g1, g2, g3, Option.map_some]

/-- C43. If a file has no truthiness counters (`reportLogic` is off), there is exactly one text that `JSON.stringify`
can write for its entry, and the text is loaded as the data the books have. -/
theorem C43_text_partial (w : World) {gcv : String} {st : State} (hp : Pristine gcv st) {r : Realm} {es : List Event}
    (h : Lives w gcv (.new st) .empty r es) (hn : NoHooks r.st.heap) {path : String} {i : Input} {c : FileCoverage}
    (hat : (Books.empty.after es).at path = some (i, c)) (hf : c.Fits) (hb : c.bT = none)
    (hl : ∀ b ∈ i.data.branchMap.values, b.locations ≠ []) :
    ∃ ps a d c', registry gcv r.st = some ps ∧ ps.get path = some (.data (.ref a)) ∧
      (∀ o, Writes r.st.heap [] (.ref a) o ↔ o = some d) ∧ Serde.load (Json.text d) = some c' ∧ c'.Same c ∧ c'.Ordered := by
  obtain ⟨_, boxes, hk, _⟩ := h.keeps hp.proto (Kept.start hp)
  exact text_of hk h.proper hn hat hf (.inl hb) hl

/-- C43 for the whole coverage object: what `JSON.stringify` writes for it has a member for every file that was
loaded and no other members, each once, and each is loaded as the data the books have for the file. -/
theorem C43_map_partial (w : World) {gcv : String} {st : State} (hp : Pristine gcv st) {r : Realm} {es : List Event}
    (h : Lives w gcv (.new st) .empty r es) (hn : NoHooks r.st.heap)
    (hj : (Books.empty.after es).at "toJSON" = none)
    (hf : ∀ path i c, (Books.empty.after es).at path = some (i, c) → c.Fits ∧
      ∀ b ∈ i.data.branchMap.values, b.locations ≠ [])
    {gs : IndexMap String Cell} {R : Nat} (hg : r.st.heap[globalObj]? = some ⟨.plain, some objectProto, gs⟩)
    (hR : gs.get gcv = some (.data (.ref R))) {o : Option Data} (hw : Writes r.st.heap [] (.ref R) o) :
    ∃ fs : IndexMap String Data, o = some (.obj fs) ∧ fs.NodupKeys ∧
      ∀ path, match (Books.empty.after es).at path with
        | none => fs.get path = none
        | some (_, c) => ∃ d, fs.get path = some d ∧ Arrives d c := by
  obtain ⟨_, boxes, hk, _⟩ := h.keeps hp.proto (Kept.start hp)
  have hi := hk.inv
  have htidy := empty_tidy.after es h.proper
  have hnd := nodup_current (b := .empty) (by simp [Books.empty, IndexMap.NodupKeys, IndexMap.keys]) es
  rcases hi.reg with ⟨_, gs', r2, r3⟩ | ⟨R', ps, ⟨⟨gs', r1, r2⟩, r3, r4⟩, r5, r6⟩
  · rw [hg] at r2
    injection r2 with r2
    injection r2 with _ _ r2
    subst r2
    rw [hR] at r3
    cases r3
  rw [hg] at r1
  injection r1 with r1
  injection r1 with _ _ r1
  subst r1
  rw [hR] at r2
  injection r2 with r2
  injection r2 with r2
  injection r2 with r2
  subst r2
  have hreg : registry gcv r.st = some ps := by
    unfold registry
    simp only [hg, hR, r3, Option.map_some]
  have hkeys : IndexMap.keys ps = IndexMap.keys (Books.empty.after es).current :=
    (keys_of_forall₂ (fun _ _ h => h.1.symm) r6).symm
  have hps : IndexMap.NodupKeys ps := by
    unfold IndexMap.NodupKeys
    rw [hkeys]
    exact hnd
  -- every property refers to a data set
  have hdata : ∀ e ∈ ps, ∃ x i c, e.2 = .data (.ref x.root) ∧ (Books.empty.after es).at e.1 = some (i, c) ∧
      Held r.st.heap x (i, c) ∧ x ∈ boxes := by
    intro e he
    have hget := IndexMap.get_of_mem hps (k := e.1) (v := e.2) he
    rcases entries_get r6 e.1 with ⟨_, k2⟩ | ⟨n, x, k1, k2, k3⟩
    · rw [hget] at k2
      cases k2
    · rw [hget] at k3
      injection k3 with k3
      have hn : n < (Books.empty.after es).sets.length := by rw [← hi.len]; exact lt_of_getElem? k2
      have hs : (Books.empty.after es).sets[n]? = some (Books.empty.after es).sets[n] := List.getElem?_eq_getElem hn
      refine ⟨x, _, _, k3, ?_, hi.held n x _ k2 hs, List.mem_of_getElem? k2⟩
      unfold Books.at
      rw [k1]
      exact hs
  have hhook : ps.get "toJSON" = none := by
    have := (hi.listed "toJSON" ps hreg)
    rw [hj] at this
    cases e : ps.get "toJSON" with
    | none => rfl
    | some c =>
      rw [e] at this
      simp at this
  have harr : ∀ e ∈ ps, ∀ v o, e.2 = .data v → Writes r.st.heap [R] v o →
      ∃ d i c, o = some d ∧ (Books.empty.after es).at e.1 = some (i, c) ∧ Arrives d c := by
    intro e he v o hv ho
    obtain ⟨x, i, c, k1, k2, k3, k4⟩ := hdata e he
    rw [k1] at hv
    injection hv with hv
    subst hv
    obtain ⟨t1, t2⟩ := htidy.at k2
    obtain ⟨f1, f2⟩ := hf _ _ _ k2
    obtain ⟨d, rfl, hd⟩ := k3.arrives hn (s := [R]) (fun a ha => by
      simp only [List.mem_singleton] at ha
      subst ha
      exact r5 x k4) t1 f1 (by rw [t2]; exact f2) ho
    exact ⟨d, i, c, rfl, k2, hd⟩
  obtain ⟨fs, rfl, hfs⟩ := (writes_obj r3 hn hhook (fun k g hg => by
    obtain ⟨x, i, c, k1, _⟩ := hdata _ hg
    cases k1) (by simp) o).1 hw
  have hmem : ∀ e, e ∈ listed ps ↔ e ∈ ps := fun e => (arrange_perm _ _).mem_iff
  have hfull := writesAll_full hfs fun e he v hv hno => by
    obtain ⟨d, _, _, hd, _⟩ := harr e ((hmem e).1 he) v _ hv hno
    cases hd
  have hlk : IndexMap.keys (listed ps) = IndexMap.keys (show IndexMap String Data from fs) :=
    keys_of_forall₂ (fun _ _ h => h.1) hfull
  have hfn : IndexMap.NodupKeys (show IndexMap String Data from fs) := by
    unfold IndexMap.NodupKeys
    rw [← hlk]
    exact ((arrange_perm _ ps).map Prod.fst).nodup_iff.2 hps
  refine ⟨fs, rfl, hfn, fun path => ?_⟩
  have hget : ∀ c, ps.get path = some c → ∃ d, (path, d) ∈ fs ∧ ∃ v, c = .data v ∧ Writes r.st.heap [R] v (some d) := by
    intro c hc
    obtain ⟨e, he, h1, h2⟩ := exists_of_forall₂ hfull _ ((hmem (path, c)).2 (IndexMap.mem_of_get hc))
    obtain ⟨k, d⟩ := e
    simp only at h1 h2
    subst h1
    exact ⟨d, he, h2⟩
  have hlist := hi.listed path ps hreg
  cases hat : (Books.empty.after es).at path with
  | none =>
    rw [hat] at hlist
    simp only
    rw [IndexMap.get_eq_none_iff, ← hlk]
    intro hm
    have hm' : path ∈ IndexMap.keys ps := ((arrange_perm _ ps).map Prod.fst).mem_iff.1 hm
    obtain ⟨v, hv⟩ := IndexMap.get_isSome_of_mem hm'
    rw [hv] at hlist
    simp at hlist
  | some e =>
    obtain ⟨i, c⟩ := e
    rw [hat] at hlist
    simp only [Option.isSome_some, iff_true] at hlist
    obtain ⟨cell, hc⟩ := Option.isSome_iff_exists.1 hlist
    obtain ⟨d, h1, v, h2, h3⟩ := hget cell hc
    obtain ⟨d', i', c', h4, h5, h6⟩ := harr (path, cell) (IndexMap.mem_of_get hc) v _ h2 h3
    injection h4 with h4
    subst h4
    simp only at h5
    rw [hat] at h5
    injection h5 with h5
    injection h5 with _ h5
    subst h5
    exact ⟨d, IndexMap.get_of_mem hfn h1, h6⟩

/-- C43 for instrumented programs. The counts of a file that was instrumented arrive: whatever `JSON.stringify` writes
for its entry of the coverage object is loaded as the report of the instrumenter with all hits of all instances of the
file added. -/
theorem C43_instrumented_partial (w : World) {cx : Ctx} {fuel : Nat} {path : String} {sm : Option SourceMap}
    {p p' : Node} {cov : SourceCoverage} (hr : Visitor.instrument cx fuel path sm p = .ok (p', cov))
    {covFn gcv : String} {st : State} (hp : Pristine gcv st) {r : Realm} (pre es : List Event)
    (hfirst : ∀ j, Event.load j ∈ pre → j.path ≠ path) (hsame : SameHash path (dataHash cov.inner) es)
    (h : Lives w gcv (.new st) .empty r (pre ++ .load (emit covFn gcv path cov.inner) :: es)) (hn : NoHooks r.st.heap)
    (hf : (cov.inner.hits (hitsOf path [] (pre ++ .load (emit covFn gcv path cov.inner) :: es))).Fits) :
    ∃ ps a, registry gcv r.st = some ps ∧ ps.get path = some (.data (.ref a)) ∧
      ∀ o, Writes r.st.heap [] (.ref a) o → ∃ d, o = some d ∧
        Arrives d (cov.inner.hits (hitsOf path [] (pre ++ .load (emit covFn gcv path cov.inner) :: es))) := by
  have hat := at_accumulated pre es (emit covFn gcv path cov.inner) hfirst hsame
  obtain ⟨n, g, o⟩ := outcome hr
  obtain ⟨ps, a, h1, h2, h3, _⟩ := C43_entry_partial w hp h hn hat hf (by
    intro b hb
    obtain ⟨⟨k, b'⟩, h1, rfl⟩ := List.mem_map.1 hb
    have h2 := IndexMap.get_of_mem o.finished.keyed.branchMap h1
    rw [o.finished.branchMap] at h2
    obtain ⟨x, _, h3⟩ := Option.bind_eq_some_iff.1 h2
    split at h3
    · cases h3
    · next ha =>
      cases h3
      exact ha)
  exact ⟨ps, a, h1, h2, h3⟩

/-! ### Concrete cases -/

theorem noHooks_of {h : List Obj} {p0 p2 : IndexMap String Cell} {c0 c2 : Cls} (h0 : h[objectProto]? = some ⟨c0, none, p0⟩)
    (h2 : h[arrayProto]? = some ⟨c2, some objectProto, p2⟩) (k0 : p0.get "toJSON" = none)
    (k2 : p2.get "toJSON" = none) : NoHooks h := by
  have ho : ¬ Inherits h objectProto "toJSON" := by
    intro hi
    cases hi with
    | own obj prop =>
      rw [h0] at obj
      injection obj with obj
      subst obj
      rw [k0] at prop
      cases prop
    | proto obj proto _ =>
      rw [h0] at obj
      injection obj with obj
      subst obj
      cases proto
  exact ⟨ho, not_inherits h2 ho k2⟩

theorem freshRealm_noHooks : NoHooks freshRealm.heap := noHooks_of rfl rfl rfl rfl

/-- The counts after a loop. -/
theorem looped (n : Nat) (hm : n ≤ maxInt) : (Books.empty.after (.load (oneStatement "a.js" "1") :: List.replicate n (.hit 0 (.s 0))))
    = ⟨[(oneStatement "a.js" "1", { (oneStatement "a.js" "1").data with s := [(0, n)] })], [("a.js", 0)], [0]⟩ := by
  have : ∀ m, m + n ≤ maxInt → (⟨[(oneStatement "a.js" "1", { (oneStatement "a.js" "1").data with s := [(0, m)] })], [("a.js", 0)], [0]⟩
      : Books).after (List.replicate n (.hit 0 (.s 0)))
      = ⟨[(oneStatement "a.js" "1", { (oneStatement "a.js" "1").data with s := [(0, m + n)] })], [("a.js", 0)], [0]⟩ := by
    induction n with
    | zero => intro m _; rfl
    | succ n ih =>
      intro m hmn
      rw [List.replicate_succ]
      have hs : (⟨[(oneStatement "a.js" "1", { (oneStatement "a.js" "1").data with s := [(0, m)] })], [("a.js", 0)],
          [0]⟩ : Books).step (.hit 0 (.s 0)) = ⟨[(oneStatement "a.js" "1",
            { (oneStatement "a.js" "1").data with s := [(0, m + 1)] })], [("a.js", 0)], [0]⟩ := by
        simp [Books.step, Books.hit, FileCoverage.hit, IndexMap.modify, bump]
        omega
      rw [Books.after, hs, ih (by omega) (m + 1) (by omega), show m + 1 + n = m + (n + 1) from by omega]
  have := this 0 (by omega)
  rw [Nat.zero_add] at this
  exact this

/-- A loop that hits one statement any number of times. -/
theorem loops (n : Nat) (hm : n ≤ maxInt) : ∃ r, Lives noWorld "__coverage__" (.new freshRealm) .empty r
    (.load (oneStatement "a.js" "1") :: List.replicate n (.hit 0 (.s 0))) ∧ r.insts = [(0, "cov_1")] ∧
      scopeOf r.st.frames [0] "cov_1" = some 0 ∧ 0 < r.st.frames.length ∧
      (∀ a ∈ [objectProto, arrayProto], r.st.heap[a]? = freshRealm.heap[a]? ∧ ¬ r.own a) := by
  induction n with
  | zero =>
    obtain ⟨st1, f, h1, h2, h3, _, _, h6⟩ := C30_life_loads_partial noWorld freshRealm_pristine (.stay _ _)
      (oneStatement_proper "a.js" "1" (by decide))
    have hc : (match Js.load noWorld (prelude (oneStatement "a.js" "1")) freshRealm with
        | .ok (st, f) => decide (f = 0 ∧ 0 < st.frames.length ∧ scopeOf st.frames [0] "cov_1" = some 0)
        | .error _ => false) = true := by decide +kernel
    have h1' : Js.load noWorld (prelude (oneStatement "a.js" "1")) freshRealm = .ok (st1, f) := h1
    rw [h1'] at hc
    obtain ⟨rfl, c1, c2⟩ := of_decide_eq_true hc
    refine ⟨_, h6, rfl, c2, c1, fun a ha => ?_⟩
    have ha' : a < freshRealm.heap.length ∧ a ≠ globalObj := by
      simp only [List.mem_cons, List.not_mem_nil, or_false] at ha
      rcases ha with rfl | rfl <;> decide
    refine ⟨h3 a ha'.1 ha'.2 id, ?_⟩
    rintro (ho | ho)
    · exact ho
    · have : freshRealm.heap.length ≤ a := ho.1
      omega
  | succ n ih =>
    obtain ⟨r, h1, h2, h3, h4, h5⟩ := ih (by omega)
    have hb := looped n (by omega)
    obtain ⟨st', k1, k2, k3, k4, k5, k6⟩ := C33_life_counter_partial noWorld freshRealm_pristine h1 (k := 0)
      (inst := (0, "cov_1")) (by rw [h2]; rfl) (env := [0]) h3 (c := .s 0) (m := 0) (n := n) (by rw [hb]; rfl)
      (by rw [hb]; rfl) rfl
    refine ⟨r.in_ st', ?_, h2, ?_, ?_, ?_⟩
    · rw [List.replicate_succ', ← List.cons_append]
      exact k6
    · show scopeOf st'.frames [0] "cov_1" = some 0
      rw [k5, scopeOf_extends (List.prefix_append _ _) (fun i hi => by
        simp only [List.mem_singleton] at hi
        subst hi
        exact h4)]
      exact h3
    · show 0 < st'.frames.length
      rw [k5, List.length_append]
      omega
    · intro a ha
      exact ⟨(k4 a (h5 a ha).2).trans (h5 a ha).1, (h5 a ha).2⟩

theorem looped_noHooks {r : Realm}
    (h : ∀ a ∈ [objectProto, arrayProto], r.st.heap[a]? = freshRealm.heap[a]? ∧ ¬ r.own a) : NoHooks r.st.heap :=
  noHooks_of (h objectProto (by decide)).1 (h arrayProto (by decide)).1 rfl rfl

/-- The data after a loop. -/
theorem looped_at (n : Nat) (hm : n ≤ maxInt) :
    (Books.empty.after (.load (oneStatement "a.js" "1") :: List.replicate n (.hit 0 (.s 0)))).at "a.js"
      = some (oneStatement "a.js" "1", { (oneStatement "a.js" "1").data with s := [(0, n)] }) := by
  rw [looped n hm]
  rfl

/-- After a loop of a thousand rounds the count arrives. -/
example : ∃ r ps a d c', Lives noWorld "__coverage__" (.new freshRealm) .empty r
      (.load (oneStatement "a.js" "1") :: List.replicate 1000 (.hit 0 (.s 0))) ∧
    registry "__coverage__" r.st = some ps ∧ ps.get "a.js" = some (.data (.ref a)) ∧
    Writes r.st.heap [] (.ref a) (some d) ∧ Serde.load (Json.text d) = some c' ∧ c'.s.get 0 = some 1000 := by
  obtain ⟨r, h1, h2, h3, h4, h5⟩ := loops 1000 (by decide)
  obtain ⟨ps, a, d, c', k1, k2, k3, k4, k5⟩ := C43_text_partial noWorld freshRealm_pristine h1 (looped_noHooks h5)
    (looped_at 1000 (by decide))
    (by refine ⟨?_, ?_, ?_, ?_, ?_, ?_, ?_, ?_⟩ <;>
          simp [oneStatement, FileCoverage.empty, IndexMap.Fits, Range.Fits, Location.Fits])
    rfl (fun b hb => by cases hb)
  exact ⟨r, ps, a, d, c', h1, k1, k2, (k3 _).2 rfl, k4, k5.1.s 0⟩

/-- The whole coverage object after that loop: it has an entry for the file and no other. -/
example : ∃ r, Lives noWorld "__coverage__" (.new freshRealm) .empty r
      (.load (oneStatement "a.js" "1") :: List.replicate 1000 (.hit 0 (.s 0))) ∧
    ∀ gs R o, r.st.heap[globalObj]? = some ⟨.plain, some objectProto, gs⟩ →
      gs.get "__coverage__" = some (.data (.ref R)) → Writes r.st.heap [] (.ref R) o →
      ∃ fs : IndexMap String Data, o = some (.obj fs) ∧ fs.get "b.js" = none ∧
        ∃ d, fs.get "a.js" = some d ∧ Arrives d { (oneStatement "a.js" "1").data with s := [(0, 1000)] } := by
  obtain ⟨r, h1, h2, h3, h4, h5⟩ := loops 1000 (by decide)
  refine ⟨r, h1, fun gs R o hg hR hw => ?_⟩
  have hb := looped 1000 (by decide)
  obtain ⟨fs, k1, k2, k3⟩ := C43_map_partial noWorld freshRealm_pristine h1 (looped_noHooks h5) (by rw [hb]; rfl)
    (fun path i c hat => by
      rw [hb] at hat
      have he : (i, c) = (oneStatement "a.js" "1", { (oneStatement "a.js" "1").data with s := [(0, 1000)] }) := by
        by_cases hp : path = "a.js"
        · subst hp
          exact (Option.some.inj ((looped_at 1000 (by decide)).symm.trans ((congrArg (·.at "a.js") hb).trans hat))).symm
        · simp [Books.at, IndexMap.get, Ne.symm hp] at hat
      injection he with h1 h2
      subst h1 h2
      refine ⟨?_, fun b hb => by cases hb⟩
      refine ⟨?_, ?_, ?_, ?_, ?_, ?_, ?_, ?_⟩ <;>
        simp [oneStatement, FileCoverage.empty, IndexMap.Fits, Range.Fits, Location.Fits]) hg hR hw
  rw [hb] at k3
  exact ⟨fs, k1, k3 "b.js", k3 "a.js"⟩

/-- C43 fails when a statement has been executed `2 ^ 32` times: the count is written, but it is not loaded. -/
theorem C43_overflow_fails : ∃ r ps a d, Lives noWorld "__coverage__" (.new freshRealm) .empty r
      (.load (oneStatement "a.js" "1") :: List.replicate (2 ^ 32) (.hit 0 (.s 0))) ∧ NoHooks r.st.heap ∧
    registry "__coverage__" r.st = some ps ∧ ps.get "a.js" = some (.data (.ref a)) ∧
    (∀ o, Writes r.st.heap [] (.ref a) o ↔ o = some d) ∧ Serde.coverage d = none := by
  obtain ⟨r, h1, h2, h3, h4, h5⟩ := loops (2 ^ 32) (by decide)
  have hn := looped_noHooks h5
  obtain ⟨_, boxes, hk, _⟩ := h1.keeps freshRealm_pristine.proto (Kept.start freshRealm_pristine)
  obtain ⟨R, ps, x, ⟨⟨gs, g1, g2⟩, g3, _⟩, k2, k3, _⟩ := hk.inv.entry (looped_at (2 ^ 32) (by decide))
  refine ⟨r, ps, x.root, _, h1, hn, ?_, k2, k3.bare hn (s := []) (fun a ha => by cases ha) (.inl rfl), by decide +kernel⟩
  unfold registry
  simp only [g1, g2, g3, Option.map_some]

/-- User code that puts an array into itself (`a.push(a)`) and yields it. -/
def nests : World := fun _ st =>
  .ok (⟨st.heap.set 4 ⟨.array, some arrayProto, [("0", .data (.ref 4))]⟩, st.frames, st.log⟩, .ref 4)

/-- An array that contains itself cannot be written. -/
theorem nested_unwritten {h : List Obj} {a : Nat} (ha : h[a]? = some ⟨.array, some arrayProto, [("0", .data (.ref a))]⟩)
    (hn : NoHooks h) (s : List Nat) (o : Option Data) : ¬ Writes h s (.ref a) o := by
  have hi : ¬ Inherits h a "toJSON" := not_inherits ha hn.array rfl
  have odd : ∀ {s o}, Writes h s (.ref a) o → a ∉ s ∧ ∃ o', Writes h (a :: s) (.ref a) o' := by
    intro s o hw
    cases hw with
    | closure obj _ => rw [ha] at obj; cases obj
    | hook _ hh => exact absurd hh hi
    | proxy _ obj => rw [ha] at obj; cases obj
    | getter _ obj hg =>
      rw [ha] at obj
      injection obj with obj
      subst obj
      simp at hg
    | obj obj _ _ _ => rw [ha] at obj; cases obj
    | @arr _ _ _ vs l obj _ hs hl =>
      refine ⟨hs, ?_⟩
      rw [ha] at obj
      injection obj with obj
      injection obj with _ _ obj
      cases vs with
      | nil => cases obj
      | cons v vs =>
        injection obj with obj _
        injection obj with _ obj
        injection obj with obj
        subst obj
        cases hl with
        | skip hw _ => exact ⟨_, hw⟩
        | keep hw _ => exact ⟨_, hw⟩
    | oddArr _ obj hv _ hs =>
      rw [ha] at obj
      injection obj with obj
      injection obj with _ _ obj
      exact absurd obj.symm (hv [.ref a])
  intro hw
  obtain ⟨_, o', hw'⟩ := odd hw
  exact (odd hw').1 (List.mem_cons_self ..)

/-- What a truthiness wrapper leaves behind. -/
def leftover (st : State) (path tmp : String) : Option Value :=
  match (registry "__coverage__" st).bind (·.get path) with
  | some (.data (.ref a)) =>
    match st.heap[a]? with
    | some ⟨.plain, some 0, ps⟩ =>
      match ps.get tmp with
      | some (.data v) => some v
      | _ => none
    | _ => none
  | _ => none

/-- C43 fails with `reportLogic`: the last operand that a truthiness wrapper evaluated stays in the data object, and
if it is a cyclic structure (which is as good as any other as an operand of `||`), the coverage data cannot be
written: `JSON.stringify` throws an exception. -/
theorem C43_cyclic_fails : ∃ r ps a, Lives nests "__coverage__" (.new arrayRealm) .empty r
      [.load oneLogic, .hit 0 (.bT 0 0)] ∧ NoHooks r.st.heap ∧
    registry "__coverage__" r.st = some ps ∧ ps.get "a.js" = some (.data (.ref a)) ∧
    ∀ o, ¬ Writes r.st.heap [] (.ref a) o := by
  have hp := arrayRealm_pristine
  obtain ⟨st1, f, h1, h2, h3, _, _, h6⟩ := C30_life_loads_partial nests hp (.stay _ _) oneLogic_proper
  have hc : (match Js.load nests (prelude oneLogic) arrayRealm with
      | .ok (st, f) => decide (f = 0 ∧ 0 < st.frames.length ∧ scopeOf st.frames [0] "cov_1" = some 0 ∧
          scopeOf st.frames [0] "Array" = none ∧ scopeOf st.frames [0] "Object" = none ∧ 4 < st.heap.length) &&
        (match eval nests [0] (truthWrapper "cov_1" "cov_1_temp" 0 0 (.extern 0)) st with
          | .ok (st', _) => decide (leftover st' "a.js" "cov_1_temp" = some (.ref 4))
          | .error _ => false)
      | .error _ => false) = true := by decide +kernel
  have h1' : Js.load nests (prelude oneLogic) arrayRealm = .ok (st1, f) := h1
  rw [h1'] at hc
  obtain ⟨hc, hc'⟩ := Bool.and_eq_true _ _ |>.mp hc
  obtain ⟨rfl, c1, c2, c3, c4, c5⟩ := of_decide_eq_true hc
  obtain ⟨_, boxes, hk, _⟩ := h6.keeps hp.proto (Kept.start hp)
  let r1 := (Realm.new arrayRealm).loaded st1 (0, oneLogic.covFn)
  have hown : ¬ (r1.in_ r1.st.scope).own 4 := by
    rintro (ho | ho)
    · exact ho
    · exact absurd ho.1 (by decide)
  have hmore : Lives nests "__coverage__" (r1.in_ r1.st.scope) (Books.empty.after [.load oneLogic])
      ((r1.in_ r1.st.scope).in_ ⟨st1.heap.set 4 ⟨.array, some arrayProto, [("0", .data (.ref 4))]⟩, st1.scope.frames,
        st1.log ++ [0]⟩) [] :=
    .code (.stay _ _) (Kept.allows_set hk.scope hown (by decide) (by decide))
  have hget : (st1.heap.set 4 ⟨.array, some arrayProto, [("0", .data (.ref 4))]⟩)[4]?
      = some ⟨.array, some arrayProto, [("0", .data (.ref 4))]⟩ := List.getElem?_set_self c5
  have hpl : Place st1 [0] (0, "cov_1") := ⟨by simpa using c1, c2, c3, c4⟩
  have hF : st1.frames <+: st1.scope.frames := List.prefix_append _ _
  have hpl2 : Place (st := ⟨st1.heap.set 4 ⟨.array, some arrayProto, [("0", .data (.ref 4))]⟩, st1.scope.frames,
      st1.log ++ [0]⟩) [0] (0, "cov_1") :=
    ⟨fun i hi => Nat.lt_of_lt_of_le (hpl.scopes i hi) hF.length_le, (scopeOf_extends hF hpl.scopes _).trans c2,
      (scopeOf_extends hF hpl.scopes _).trans c3, (scopeOf_extends hF hpl.scopes _).trans c4⟩
  obtain ⟨st5, k1, k2, k3, k4, k5⟩ := C33_life_wrapper_partial nests hp h6 (k := 0) (inst := (0, "cov_1")) rfl
    (env := [0]) hpl hmore (operand := .extern 0) (v := .ref 4) rfl (by
      intro a ha
      injection ha with ha
      subst ha
      exact ⟨_, hget, (fun t ht => by cases ht), fun hp => by cases hp⟩) hpl2 (branch := 0) (arm := 0)
    ⟨0, rfl, _, rfl, rfl⟩
  have hcount : counted (st1.heap.set 4 ⟨.array, some arrayProto, [("0", .data (.ref 4))]⟩) (.ref 4) = true := by
    simp only [counted, emptyArray, emptyObject, hget, Value.truthy]
    decide
  have hcount' : counted (((r1.in_ r1.st.scope).in_ ⟨st1.heap.set 4 ⟨.array, some arrayProto,
      [("0", .data (.ref 4))]⟩, st1.scope.frames, st1.log ++ [0]⟩).st.heap) (.ref 4) = true := hcount
  rw [hcount'] at k5
  have k1' : eval nests [0] (truthWrapper "cov_1" "cov_1_temp" 0 0 (.extern 0)) st1 = .ok (st5, .ref 4) := k1
  rw [k1'] at hc'
  have l1 := of_decide_eq_true hc'
  have l2 := (k4 4 (by show 4 < (st1.heap.set 4 _).length; rw [List.length_set]; exact c5) hown).trans hget
  have old : ∀ a, a < 4 → a ≠ globalObj → st5.heap[a]? = arrayRealm.heap[a]? := by
    intro a ha hg
    refine (k4 a (by show a < (st1.heap.set 4 _).length; rw [List.length_set]; omega) ?_).trans
      ((List.getElem?_set_ne (by omega)).trans (h3 a (by show a < 5; omega) hg id))
    rintro (ho | ho)
    · exact ho
    · have : 5 ≤ a := ho.1
      omega
  have l3 := old objectProto (by decide) (by decide)
  have l4 := old arrayProto (by decide) (by decide)
  have hn : NoHooks st5.heap := noHooks_of l3 l4 rfl rfl
  obtain ⟨ps, a, e1, e2, e3, e4⟩ := C43_entry_partial nests hp k5 hn (path := "a.js") (i := oneLogic)
    (c := { oneLogic.data with bT := some [(0, [1, 0])] }) rfl
    (by refine ⟨?_, ?_, ?_, ?_, ?_, ?_, ?_, ?_⟩ <;>
          simp [oneLogic, FileCoverage.empty, IndexMap.Fits, Range.Fits, Location.Fits])
    (fun b hb => by cases hb)
  have e1' : registry "__coverage__" st5 = some ps := e1
  refine ⟨_, ps, a, k5, hn, e1, e2, fun o hw => ?_⟩
  obtain ⟨d, rfl, _⟩ := e3 o hw
  have ht := e4.1 ⟨d, hw⟩
  unfold leftover at l1
  simp only [e1', Option.bind_some, e2] at l1
  split at l1
  case h_2 => cases l1
  rename_i qs hq
  split at l1
  case h_2 => cases l1
  rename_i v hv
  injection l1 with l1
  subst l1
  obtain ⟨o', ho'⟩ := ht qs "cov_1_temp" _ hq (IndexMap.mem_of_get hv) (by decide)
  exact nested_unwritten l2 hn _ _ ho'

end Verif
