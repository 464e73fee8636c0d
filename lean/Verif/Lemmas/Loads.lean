import Verif.Lemmas.Books
/-
Loading a file keeps the books.
-/
namespace Verif.Runtime
open Js Template

section
variable {w : World} {H : List Obj} {F : List (IndexMap String Value)} {L : List Nat} {gcv : String}

/-- The heap in which the body of the coverage function starts. -/
def declared (H : List Obj) (F : List (IndexMap String Value)) (i : Input) : List Obj :=
  H ++ [⟨.closure (fnBody i) [F.length], some functionProto, []⟩]

/-- The variables when the data object is made. -/
def early (i : Input) (root : Nat) (c : Value) : IndexMap String Value :=
  locals (.str i.path) (.str i.hash) (.ref globalObj) (.str i.coverageVariable) (.ref root) c .undef

/-- Loading, put together from its steps. -/
theorem load_ok (i : Input) (hk : i.data.Keyed)
    (hc : i.covFn ∉ ["path", "hash", "global", "gcv", "coverageData", "coverage", "actualCoverage"])
    (hp : i.path ≠ "__proto__") :
    ∃ H2 root, declared H F i <+: H2 ∧
      Reads H2 (H.length + 1) H2.length (.ref root) (dataTree i.magic i.hash i.data) ∧
      ∀ (fi : IndexMap String Value) H3 R H4 ps root', fi = [(i.covFn, .ref H.length)] →
        expr w (call w 1) [F.length + 1, F.length] (.or (.index (.ident "global") (.ident "gcv"))
          (.paren (.assign (.index (.ident "global") (.ident "gcv")) (.obj .nil))))
          ⟨H2, F ++ [fi, early i root .undef], L⟩ = .ok (⟨H3, F ++ [fi, early i root .undef], L⟩, .ref R) →
        stmt w (call w 1) [F.length + 1, F.length] installStmt ⟨H3, F ++ [fi, early i root (.ref R)], L⟩
          = .ok (⟨H4, F ++ [fi, early i root (.ref R)], L⟩, none) →
        H4[R]? = some ⟨.plain, some objectProto, ps⟩ → ps.get i.path = some (.data (.ref root')) →
        ∃ fj : IndexMap String Value, fj.get "actualCoverage" = some (.ref root') ∧
          load w (prelude i) ⟨H, F, L⟩ = .ok (⟨H4 ++ [getter [F.length + 1, F.length]],
            F ++ [[(i.covFn, .ref H4.length)], fj], L⟩, F.length) := by
  obtain ⟨H2, root, h1, h2, h3⟩ := body_head (w := w) (H := declared H F i) (F := F) (L := L)
    (fi := [(i.covFn, .ref H.length)]) i 0
    [.var "coverage" (.or (.index (.ident "global") (.ident "gcv"))
      (.paren (.assign (.index (.ident "global") (.ident "gcv")) (.obj .nil)))), installStmt,
     .var "actualCoverage" (.index (.ident "coverage") (.ident "path")),
     .block (.ofList [.expr (.assign (.ident i.covFn) (.fn (.ofList [.ret (.ident "actualCoverage")])))]),
     .ret (.ident "actualCoverage")] hk
  have hl : (declared H F i).length = H.length + 1 := by simp [declared]
  rw [hl] at h2
  refine ⟨H2, root, h1, h2, ?_⟩
  intro fi H3 R H4 ps root' hfi e1 e2 hR he
  subst hfi
  refine ⟨locals (.str i.path) (.str i.hash) (.ref globalObj) (.str i.coverageVariable) (.ref root) (.ref R)
    (.ref root'), rfl, ?_⟩
  refine load_body (v := .ref root') i ?_
  have e3 : stmt w (call w 1) [F.length + 1, F.length]
      (.var "coverage" (.or (.index (.ident "global") (.ident "gcv"))
        (.paren (.assign (.index (.ident "global") (.ident "gcv")) (.obj .nil)))))
      ⟨H2, F ++ [[(i.covFn, .ref H.length)], early i root .undef], L⟩
      = .ok (⟨H3, F ++ [[(i.covFn, .ref H.length)], early i root (.ref R)], L⟩, none) := var_step e1
  have e4 := body_tail (w := w) (H := H4) (F := F) (L := L) (fi := [(i.covFn, .ref H.length)]) i (call w 1)
    (p := .undef) (h := .str i.hash) (g := .ref globalObj) (v := .str i.coverageVariable) (d := .ref root)
    (u := .ref H.length) hc (by simp [IndexMap.get]) hp hR he
  have hins : IndexMap.insert [(i.covFn, .ref H.length)] i.covFn (Value.ref H4.length)
      = [(i.covFn, .ref H4.length)] := by simp [IndexMap.insert]
  rw [hins] at e4
  refine h3.trans ?_
  simp only [Stmts.ofList] at e4 ⊢
  have e3' := stmts_cons (ss := .cons installStmt (.cons (.var "actualCoverage" (.index (.ident "coverage") (.ident "path")))
    (.cons (.block (.cons (.expr (.assign (.ident i.covFn) (.fn (.cons (.ret (.ident "actualCoverage")) .nil)))) .nil))
    (.cons (.ret (.ident "actualCoverage")) .nil)))) e3
  refine e3'.trans ?_
  rw [stmts_cons e2]
  exact e4

theorem ReadsAll_known {h : List Obj} {lo hi : Nat} {ps : IndexMap String Cell} {magic hash : String}
    {c : FileCoverage} (hr : ReadsAll h lo hi ps (dataFields magic hash c)) : known ps = ps := by
  have hk := hr.keys
  rw [dataFields_keys] at hk
  unfold known
  refine List.filter_eq_self.2 fun e he => ?_
  have : e.1 ∈ ps.map Prod.fst := List.mem_map.2 ⟨e, he, rfl⟩
  rw [hk] at this
  simp only [decide_eq_true_eq]
  unfold fieldNames
  revert this
  cases c.bT <;> cases c.inputSourceMap <;> simp <;> grind

/-- A new data set. -/
theorem held_new {H : List Obj} {lo hi root : Nat} {i : Input}
    (h : Reads H lo hi (.ref root) (dataTree i.magic i.hash i.data)) : Held H ⟨lo, hi, root⟩ (i, i.data) := by
  unfold dataTree at h
  cases h with
  | @obj _ _ m _ ps _ h1 h2 h3 h4 => 
    refine ⟨ps, m, h1, h2, h3, by rw [ReadsAll_known h4]; exact h4, fun e he => Or.inl ?_⟩
    have hk := ReadsAll_known h4
    unfold known at hk
    rw [← hk] at he
    simpa using (List.mem_filter.1 he).2

/-- A new data set has no temporaries, as long as its data object is not changed. -/
theorem spare_new {H H' : List Obj} {lo hi root : Nat} {i : Input}
    (h : Reads H lo hi (.ref root) (dataTree i.magic i.hash i.data))
    (ha : ∀ a, lo ≤ a → a < hi → H'[a]? = H[a]?) : Spare H' ⟨lo, hi, root⟩ := by
  unfold dataTree at h
  cases h with
  | @obj _ _ m _ ps _ h1 h2 h3 h4 =>
    intro ps' h' e he
    have hle := h4.le
    have hroot : H'[root]? = H[root]? := ha root (by omega) h3
    simp only at h'
    rw [hroot, h1] at h'
    cases h'
    have hk := ReadsAll_known h4
    unfold known at hk
    rw [← hk] at he
    simpa using (List.mem_filter.1 he).2

/-- The instance that was just loaded. -/
theorem wired_new {H4 : List Obj} {fj : IndexMap String Value} {root : Nat} {cov : String}
    (hf : fj.get "actualCoverage" = some (.ref root)) :
    Wired (H4 ++ [getter [F.length + 1, F.length]]) (F ++ [[(cov, .ref H4.length)], fj]) root (F.length, cov) :=
  ⟨[(cov, .ref H4.length)], H4.length, F.length + 1, fj, by simp, by simp [IndexMap.get], getElem?_length _ _,
    by simp, hf⟩

/-- The books after a data set was opened. -/
theorem Inv.opens {insts : List Instance} {b : Books} {boxes : List Box} (hi : Inv gcv H F insts b boxes)
    {i : Input} {H2 H5 : List Obj} {F' : List (IndexMap String Value)} {inst : Instance} {root R : Nat}
    {ps : IndexMap String Cell} (hpre : H <+: H2) (hlen : H.length + 1 ≤ H2.length) (hlen5 : H2.length ≤ H5.length)
    (hread : Reads H2 (H.length + 1) H2.length (.ref root) (dataTree i.magic i.hash i.data))
    (hframes : F <+: F') (hout : ∀ a, a ≠ globalObj → a ≠ R → a < H2.length → H5[a]? = H2[a]?)
    (hopen : Opened gcv H5 R ps) (hR : R < H.length + 1 ∨ H2.length ≤ R)
    (hRs : ∀ x ∈ boxes, R < x.lo ∨ x.hi ≤ R)
    (hent : List.Forall₂ (Entry (boxes ++ [⟨H.length + 1, H2.length, root⟩]))
      (b.current.insert i.path b.sets.length) ps)
    (hclo : ∀ (fa : Nat) (env : List Nat), H[fa]? = some (getter env) → fa ≠ globalObj ∧ fa ≠ R)
    (hw : Wired H5 F' root inst) (hkept : b.kept i = none) :
    Inv gcv H5 F' (insts ++ [inst]) (b.load i) (boxes ++ [⟨H.length + 1, H2.length, root⟩]) := by
  have hb : b.load i = ⟨b.sets ++ [(i, i.data)], b.current.insert i.path b.sets.length,
      b.writes ++ [b.sets.length]⟩ := by
    unfold Books.load
    rw [hkept]
  have hsize := hi.size
  have hR4 := hopen.2.2
  have hnew : (boxes ++ [(⟨H.length + 1, H2.length, root⟩ : Box)])[b.sets.length]?
      = some ⟨H.length + 1, H2.length, root⟩ := by rw [← hi.len]; simp
  rw [hb]
  constructor
  · refine root_of_agree (hi.root.prefix hpre) (hout _ (by decide) ?_ ?_) <;> unfold objectProto <;> omega
  · omega
  · simp [hi.len]
  · intro n x e hx he
    by_cases hn : n < boxes.length
    · rw [List.getElem?_append_left hn] at hx
      rw [List.getElem?_append_left (by rw [← hi.len]; exact hn)] at he
      have hin := hi.inside x (List.mem_of_getElem? hx)
      have hRx := hRs x (List.mem_of_getElem? hx)
      refine (hi.held n x e hx he).agree fun a ha1 ha2 => ?_
      rw [hout a (by unfold globalObj; omega) (by omega) (by omega)]
      obtain ⟨T, rfl⟩ := hpre
      exact List.getElem?_append_left (by omega)
    · have hn' : n = boxes.length := by
        have := lt_of_getElem? hx
        simp at this
        omega
      subst hn'
      rw [hi.len] at he
      simp at hx he
      subst hx he
      exact (held_new hread).agree fun a ha1 ha2 => by
        simp only at ha1 ha2
        exact hout a (by unfold globalObj; omega) (by omega) ha2
  · intro n m x y hnm hx hy
    by_cases hm : m < boxes.length
    · rw [List.getElem?_append_left hm] at hy
      rw [List.getElem?_append_left (by omega)] at hx
      exact hi.apart n m x y hnm hx hy
    · have hm' : m = boxes.length := by
        have := lt_of_getElem? hy
        simp at this
        omega
      subst hm'
      simp at hy
      subst hy
      rw [List.getElem?_append_left hnm] at hx
      have := (hi.inside x (List.mem_of_getElem? hx)).2
      simp only
      omega
  · intro x hx
    rcases List.mem_append.1 hx with hx | hx
    · have := hi.inside x hx
      omega
    · simp only [List.mem_singleton] at hx
      subst hx
      simp only
      omega
  · refine Or.inr ⟨R, ps, hopen, ?_, hent⟩
    intro x hx
    rcases List.mem_append.1 hx with hx | hx
    · exact hRs x hx
    · simp only [List.mem_singleton] at hx
      subst hx
      exact hR
  · simp [hi.lenw]
  · intro k inst' n hk hw'
    by_cases hkl : k < insts.length
    · rw [List.getElem?_append_left hkl] at hk
      rw [List.getElem?_append_left (by rw [← hi.lenw]; exact hkl)] at hw'
      obtain ⟨x, hx, hwx⟩ := hi.wired k inst' n hk hw'
      refine ⟨x, prefix_get (List.prefix_append _ _) hx, hwx.mono hframes ?_⟩
      intro fa env hf
      have hfa := lt_of_getElem? hf
      rw [hout fa (hclo fa env hf).1 (hclo fa env hf).2 (by omega)]
      exact prefix_get hpre hf
    · have hk' : k = insts.length := by
        have := lt_of_getElem? hk
        simp at this
        omega
      subst hk'
      rw [hi.lenw] at hw'
      simp at hk hw'
      subst hk hw'
      exact ⟨_, hnew, hw⟩

/-- The books after a data set was kept. -/
theorem Inv.keeps {insts : List Instance} {b : Books} {boxes : List Box} (hi : Inv gcv H F insts b boxes)
    {i : Input} {H5 : List Obj} {F' : List (IndexMap String Value)} {inst : Instance} {n : Nat} {x : Box}
    (hpre : H <+: H5) (hframes : F <+: F') (hx : boxes[n]? = some x) (hw : Wired H5 F' x.root inst)
    (hkept : b.kept i = some n) : Inv gcv H5 F' (insts ++ [inst]) (b.load i) boxes := by
  have hb : b.load i = { b with writes := b.writes ++ [n] } := by
    unfold Books.load
    rw [hkept]
  have hle := hpre.length_le
  rw [hb]
  constructor
  · exact hi.root.prefix hpre
  · have := hi.size
    omega
  · exact hi.len
  · intro m y e hy he
    have hin := hi.inside y (List.mem_of_getElem? hy)
    refine (hi.held m y e hy he).agree fun a ha1 ha2 => ?_
    obtain ⟨T, rfl⟩ := hpre
    exact List.getElem?_append_left (by omega)
  · exact hi.apart
  · intro y hy
    have := hi.inside y hy
    omega
  · rcases hi.reg with ⟨r1, gs, r2, r3⟩ | ⟨R, ps, ⟨⟨gs, r1, r2⟩, r3, r4⟩, r5, r6⟩
    · exact Or.inl ⟨r1, gs, prefix_get hpre r2, r3⟩
    · exact Or.inr ⟨R, ps, ⟨⟨gs, prefix_get hpre r1, r2⟩, prefix_get hpre r3, r4⟩, r5, r6⟩
  · simp [hi.lenw]
  · intro k inst' m hk hw'
    by_cases hkl : k < insts.length
    · rw [List.getElem?_append_left hkl] at hk
      simp only at hw'
      rw [List.getElem?_append_left (by rw [← hi.lenw]; exact hkl)] at hw'
      obtain ⟨y, hy, hwy⟩ := hi.wired k inst' m hk hw'
      exact ⟨y, hy, hwy.mono hframes fun fa env hf => prefix_get hpre hf⟩
    · have hk' : k = insts.length := by
        have := lt_of_getElem? hk
        simp at this
        omega
      subst hk'
      simp only [hi.lenw] at hw'
      simp at hk hw'
      subst hk hw'
      exact ⟨x, hx, hw⟩

theorem not_getter {a : Nat} {p : Option Nat} {ps : IndexMap String Cell} (h : H[a]? = some ⟨.plain, p, ps⟩)
    {fa : Nat} {env : List Nat} (hf : H[fa]? = some (getter env)) : fa ≠ a := by
  intro e
  subst e
  rw [h] at hf
  injection hf with hf
  injection hf with hf
  cases hf

/-- `R` is the object the coverage data is kept in. -/
def IsReg (gcv : String) (H : List Obj) (R : Nat) : Prop :=
  ∃ gs, H[globalObj]? = some ⟨.plain, some objectProto, gs⟩ ∧ gs.get gcv = some (.data (.ref R))

/-- What loading a file does besides keeping the books: what it uses later is new, and nothing else changes but
the coverage variable and the coverage object. -/
structure Laid (gcv : String) (H : List Obj) (F : List (IndexMap String Value)) (H' : List Obj)
    (F' : List (IndexMap String Value)) (inst : Instance) : Prop where
  frame : inst.1 = F.length
  frames : F'.length = F.length + 2
  fn : ∃ f fa, F'[inst.1]? = some f ∧ f.get inst.2 = some (.ref fa) ∧ H.length ≤ fa ∧
    H'[fa]? = some (getter [F.length + 1, F.length]) ∧ ∀ x, x ≠ inst.2 → f.get x = none
  reg : ∀ R, IsReg gcv H' R → IsReg gcv H R ∨ (H.length ≤ R ∧ R < H'.length)
  rest : ∀ a, a < H.length → a ≠ globalObj → ¬ IsReg gcv H a → H'[a]? = H[a]?
  global : ∀ gs, H[globalObj]? = some ⟨.plain, some objectProto, gs⟩ →
    ∃ gs', H'[globalObj]? = some ⟨.plain, some objectProto, gs'⟩ ∧ ∀ k, k ≠ gcv → gs'.get k = gs.get k

theorem laid_new {H H4 : List Obj} {fj : IndexMap String Value} {cov : String} {gs gs' : IndexMap String Cell}
    (hlen : H.length ≤ H4.length) (hg : H[globalObj]? = some ⟨.plain, some objectProto, gs⟩)
    (hg' : H4[globalObj]? = some ⟨.plain, some objectProto, gs'⟩)
    (hreg : ∀ R, gs'.get gcv = some (.data (.ref R)) → gs.get gcv = some (.data (.ref R)) ∨ (H.length ≤ R ∧ R < H4.length))
    (hk : ∀ k, k ≠ gcv → gs'.get k = gs.get k)
    (hrest : ∀ a, a < H.length → a ≠ globalObj → ¬ IsReg gcv H a → H4[a]? = H[a]?) :
    Laid gcv H F (H4 ++ [getter [F.length + 1, F.length]]) (F ++ [[(cov, .ref H4.length)], fj]) (F.length, cov) := by
  have hg5 : (H4 ++ [getter [F.length + 1, F.length]])[globalObj]? = some ⟨.plain, some objectProto, gs'⟩ :=
    prefix_get (List.prefix_append _ _) hg'
  refine ⟨rfl, by simp, ⟨[(cov, .ref H4.length)], H4.length, by simp, by simp [IndexMap.get], hlen, getElem?_length _ _,
    fun x hx => by simp [IndexMap.get, Ne.symm hx]⟩, ?_, ?_, ?_⟩
  · rintro R ⟨gs1, r1, r2⟩
    rw [hg5] at r1
    injection r1 with r1
    injection r1 with _ _ r1
    subst r1
    rcases hreg R r2 with h | h
    · exact Or.inl ⟨gs, hg, h⟩
    · exact Or.inr ⟨h.1, by rw [List.length_append]; omega⟩
  · intro a h1 h2 h3
    rw [List.getElem?_append_left (by omega)]
    exact hrest a h1 h2 h3
  · intro gs1 h1
    rw [hg] at h1
    injection h1 with h1
    injection h1 with _ _ h1
    subst h1
    exact ⟨gs', hg5, hk⟩

/-- Loading, in terms of the books. -/
theorem Inv.load {insts : List Instance} {b : Books} {boxes : List Box} (hi : Inv gcv H F insts b boxes)
    {i : Input} (ha : Proper gcv i) (hg : gcv ≠ "__proto__") :
    ∃ H' F' boxes' f, Js.load w (prelude i) ⟨H, F, L⟩ = .ok (⟨H', F', L⟩, f) ∧
      Inv gcv H' F' (insts ++ [(f, i.covFn)]) (b.load i) boxes' ∧
      Grows H F insts b boxes H' F' (insts ++ [(f, i.covFn)]) (b.load i) boxes' ∧
      Laid gcv H F H' F' (f, i.covFn) ∧ ∀ x ∈ boxes', x ∈ boxes ∨ Spare H' x := by
  obtain ⟨H2, root, hpre, hread, hload⟩ := load_ok (w := w) (H := H) (F := F) (L := L) i ha.keyed ha.covFn ha.path
  have hpre' : H <+: H2 := (List.prefix_append _ _).trans hpre
  have hlen2 : H.length + 1 ≤ H2.length := by
    have := hpre.length_le
    simpa [declared] using this
  have hvar : (early i root .undef).get "gcv" = some (.str gcv) := by rw [← ha.variable_]; rfl
  have hroot2 : Root gcv H2 := hi.root.prefix hpre'
  have hsize := hi.size
  have hwrites : b.writes <+: (b.load i).writes := by
    unfold Books.load
    split <;> exact List.prefix_append _ _
  have hgrow : ∀ {H' : List Obj} {T : List (IndexMap String Value)} {inst : Instance} {more : List Box},
      H2.length ≤ H'.length → (∀ x ∈ more, H.length ≤ x.lo) →
      Grows H F insts b boxes H' (F ++ T) (insts ++ [inst]) (b.load i) (boxes ++ more) := by
    intro H' T inst more h1 h2
    refine ⟨by omega, List.prefix_append _ _, List.prefix_append _ _, hwrites, List.prefix_append _ _, fun x hx => ?_⟩
    rcases List.mem_append.1 hx with hx | hx
    · exact Or.inl hx
    · exact Or.inr (h2 x hx)
  rcases hi.reg with ⟨r1, gs, r2, r3⟩ | ⟨R, ps, ⟨⟨gs, r1, r2⟩, r3, r4⟩, r5, r6⟩
  · -- no coverage object yet
    have hgl : H2[globalObj]? = some ⟨.plain, some objectProto, gs⟩ := prefix_get hpre' r2
    have e1 := coverage_unopened (w := w) (call := call w 1) (F := F) (L := L) (fi := [(i.covFn, .ref H.length)])
      (fj := early i root .undef) hg rfl hvar hroot2 hgl r3
    have hlen3 : (openedHeap gcv H2 gs).length = H2.length + 1 := by simp [openedHeap]
    have hout : ∀ a, a ≠ globalObj → a < H2.length → (openedHeap gcv H2 gs)[a]? = H2[a]? := by
      intro a h1 h2
      unfold openedHeap
      rw [List.getElem?_set_ne (fun e => h1 e.symm)]
      exact List.getElem?_append_left h2
    have hR : (openedHeap gcv H2 gs)[H2.length]? = some ⟨.plain, some objectProto, []⟩ := by
      unfold openedHeap
      rw [List.getElem?_set_ne (by unfold globalObj; omega)]
      exact getElem?_length _ _
    have hgl3 : (openedHeap gcv H2 gs)[globalObj]?
        = some ⟨.plain, some objectProto, gs.insert gcv (.data (.ref H2.length))⟩ := by
      unfold openedHeap
      exact List.getElem?_set_self (by rw [List.length_append]; unfold globalObj; omega)
    have hroot3 : Root gcv (openedHeap gcv H2 gs) :=
      root_of_agree hroot2 (hout _ (by decide) (by unfold objectProto; omega))
    generalize openedHeap gcv H2 gs = H3 at e1 hlen3 hout hR hgl3 hroot3
    have e2 := install_new (w := w) (call := call w 1) (F := F) (L := L) (fi := [(i.covFn, .ref H.length)])
      (fj := early i root (.ref H2.length)) (R := H2.length) (path := i.path) (hash := i.hash) (cd := .ref root)
      rfl rfl rfl rfl ha.path hR hroot3 (Or.inl rfl)
    have hR4 : (H3.set H2.length ⟨.plain, some objectProto, IndexMap.insert [] i.path (.data (.ref root))⟩)[H2.length]?
        = some ⟨.plain, some objectProto, [(i.path, .data (.ref root))]⟩ := List.getElem?_set_self (by omega)
    obtain ⟨fj, f1, f2⟩ := hload _ _ _ _ _ root rfl e1 e2 hR4 (by simp [IndexMap.get])
    have hw := wired_new (F := F) (cov := i.covFn) (H4 := H3.set H2.length
      ⟨.plain, some objectProto, IndexMap.insert [] i.path (.data (.ref root))⟩) f1
    refine ⟨_, _, _, _, f2, hi.opens (R := H2.length) (ps := [(i.path, .data (.ref root))]) hpre' hlen2 ?_ hread
      (List.prefix_append _ _) ?_ ⟨⟨gs.insert gcv (.data (.ref H2.length)), ?_, ?_⟩, ?_, by omega⟩ (Or.inr (Nat.le_refl _)) ?_ ?_ ?_ hw ?_,
      hgrow ?_ ?_, laid_new (gs := gs) (gs' := gs.insert gcv (.data (.ref H2.length))) ?_ r2 ?_ ?_ ?_ ?_, fun x hx => ?_⟩
    · rw [List.length_append, List.length_set]
      omega
    · intro a h1 h2 h3
      rw [List.getElem?_append_left (by rw [List.length_set]; omega), List.getElem?_set_ne (fun e => h2 e.symm)]
      exact hout a h1 h3
    · rw [List.getElem?_append_left (by rw [List.length_set]; unfold globalObj; omega),
        List.getElem?_set_ne (by unfold globalObj; omega)]
      exact hgl3
    · rw [IndexMap.get_insert, if_pos rfl]
    · rw [List.getElem?_append_left (by rw [List.length_set]; omega)]
      exact hR4
    · intro x hx
      have := (hi.inside x hx).2
      omega
    · rw [r1]
      exact .cons ⟨rfl, ⟨H.length + 1, H2.length, root⟩, by rw [← hi.len]; simp, rfl⟩ .nil
    · intro fa env hf
      exact ⟨not_getter r2 hf, by have := lt_of_getElem? hf; omega⟩
    · unfold Books.kept
      rw [r1]
      rfl
    · rw [List.length_append, List.length_set]
      omega
    · intro x hx
      simp only [List.mem_singleton] at hx
      subst hx
      simp only
      omega
    · rw [List.length_set]
      omega
    · rw [List.getElem?_set_ne (by unfold globalObj; omega)]
      exact hgl3
    · intro R hR'
      rw [IndexMap.get_insert, if_pos rfl] at hR'
      injection hR' with hR'
      injection hR' with hR'
      injection hR' with hR'
      subst hR'
      exact Or.inr ⟨by omega, by rw [List.length_set]; omega⟩
    · intro k hk
      rw [IndexMap.get_insert, if_neg (fun e => hk e.symm)]
    · intro a h1 h2 _
      rw [List.getElem?_set_ne (by omega), hout a h2 (by omega)]
      obtain ⟨T, rfl⟩ := hpre'
      exact List.getElem?_append_left h1
    · rcases List.mem_append.1 hx with hx | hx
      · exact .inl hx
      · rw [List.mem_singleton.1 hx]
        refine .inr (spare_new hread fun a h1 h2 => ?_)
        rw [List.getElem?_append_left (by rw [List.length_set]; omega), List.getElem?_set_ne (by omega)]
        exact hout a (by unfold globalObj; omega) h2
  · -- there is a coverage object
    have hRlt : R < H.length := lt_of_getElem? r3
    have hgl2 : H2[globalObj]? = some ⟨.plain, some objectProto, gs⟩ := prefix_get hpre' r1
    have hR2 : H2[R]? = some ⟨.plain, some objectProto, ps⟩ := prefix_get hpre' r3
    have e1 := coverage_opened (w := w) (call := call w 1) (F := F) (L := L) (fi := [(i.covFn, .ref H.length)])
      (fj := early i root .undef) hg rfl hvar (⟨⟨gs, hgl2, r2⟩, hR2, r4⟩ : Opened gcv H2 R ps)
    have hdec : (∃ n x, b.kept i = some n ∧ boxes[n]? = some x ∧ ps.get i.path = some (.data (.ref x.root)) ∧
          ∃ rs, H2[x.root]? = some ⟨.plain, some objectProto, rs⟩ ∧ rs.get "hash" = some (.data (.str i.hash))) ∨
        (b.kept i = none ∧ (ps.get i.path = none ∨ ∃ root rs hash', ps.get i.path = some (.data (.ref root)) ∧
          H2[root]? = some ⟨.plain, some objectProto, rs⟩ ∧ rs.get "hash" = some (.data (.str hash')) ∧
            hash' ≠ i.hash)) := by
      unfold Books.kept
      rcases entries_get r6 i.path with ⟨h1, h2⟩ | ⟨n, x, h1, h2, h3⟩
      · rw [h1]
        exact Or.inr ⟨rfl, Or.inl h2⟩
      · rw [h1]
        have hn : n < b.sets.length := by rw [← hi.len]; exact lt_of_getElem? h2
        obtain ⟨e, he⟩ : ∃ e, b.sets[n]? = some e := ⟨_, List.getElem?_eq_getElem hn⟩
        obtain ⟨rs, k1, k2⟩ := (hi.held n x e h2 he).hash
        simp only [he]
        by_cases hh : e.1.hash = i.hash
        · rw [if_pos hh]
          exact Or.inl ⟨n, x, rfl, h2, h3, rs, prefix_get hpre' k1, by rw [k2, hh]⟩
        · rw [if_neg hh]
          exact Or.inr ⟨rfl, Or.inr ⟨x.root, rs, e.1.hash, h3, prefix_get hpre' k1, k2, hh⟩⟩
    rcases hdec with ⟨n, x, hkept, hx, hent, rs, k1, k2⟩ | ⟨hkept, hent⟩
    · have e2 := install_keep (w := w) (call := call w 1) (F := F) (L := L) (fi := [(i.covFn, .ref H.length)])
        (fj := early i root (.ref R)) rfl rfl rfl ha.path hR2 hent k1 k2
      obtain ⟨fj, f1, f2⟩ := hload _ _ _ _ _ x.root rfl e1 e2 hR2 hent
      have hg := hgrow (H' := H2 ++ [getter [F.length + 1, F.length]]) (T := [[(i.covFn, .ref H2.length)], fj])
        (inst := (F.length, i.covFn)) (more := []) (by simp) (by simp)
      rw [List.append_nil] at hg
      exact ⟨_, _, _, _, f2, hi.keeps (hpre'.trans (List.prefix_append _ _)) (List.prefix_append _ _) hx
        (wired_new f1) hkept, hg, laid_new (by omega) r1 hgl2 (fun _ h => Or.inl h) (fun _ _ => rfl) fun a h1 _ _ => by
          obtain ⟨T, rfl⟩ := hpre'
          exact List.getElem?_append_left h1, fun _ h => .inl h⟩
    · have e2 := install_new (w := w) (call := call w 1) (F := F) (L := L) (fi := [(i.covFn, .ref H.length)])
        (fj := early i root (.ref R)) (path := i.path) (hash := i.hash) (cd := .ref root)
        rfl rfl rfl rfl ha.path hR2 hroot2 hent
      have hR4 : (H2.set R ⟨.plain, some objectProto, ps.insert i.path (.data (.ref root))⟩)[R]?
          = some ⟨.plain, some objectProto, ps.insert i.path (.data (.ref root))⟩ :=
        List.getElem?_set_self (by omega)
      obtain ⟨fj, f1, f2⟩ := hload _ _ _ _ _ root rfl e1 e2 hR4 (by rw [IndexMap.get_insert, if_pos rfl])
      have hw := wired_new (F := F) (cov := i.covFn) (H4 := H2.set R
        ⟨.plain, some objectProto, ps.insert i.path (.data (.ref root))⟩) f1
      refine ⟨_, _, _, _, f2, hi.opens (R := R) (ps := ps.insert i.path (.data (.ref root))) hpre' hlen2 ?_ hread
        (List.prefix_append _ _) ?_ ⟨⟨gs, ?_, r2⟩, ?_, r4⟩ (Or.inl (by omega)) r5 ?_ ?_ hw hkept,
        hgrow ?_ ?_, laid_new (gs := gs) (gs' := gs) ?_ r1 ?_ (fun _ h => Or.inl h) (fun _ _ => rfl) ?_, fun x hx => ?_⟩
      · rw [List.length_append, List.length_set]
        omega
      · intro a h1 h2 h3
        rw [List.getElem?_append_left (by rw [List.length_set]; omega), List.getElem?_set_ne (fun e => h2 e.symm)]
      · rw [List.getElem?_append_left (by rw [List.length_set]; unfold globalObj; omega),
          List.getElem?_set_ne (by unfold globalObj; omega)]
        exact hgl2
      · rw [List.getElem?_append_left (by rw [List.length_set]; omega)]
        exact hR4
      · refine entries_insert (r6.imp fun _ _ h => h.mono) ?_
        exact ⟨rfl, ⟨H.length + 1, H2.length, root⟩, by rw [← hi.len]; simp, rfl⟩
      · intro fa env hf
        exact ⟨not_getter r1 hf, not_getter r3 hf⟩
      · rw [List.length_append, List.length_set]
        omega
      · intro x hx
        simp only [List.mem_singleton] at hx
        subst hx
        simp only
        omega
      · rw [List.length_set]
        omega
      · rw [List.getElem?_set_ne (by unfold globalObj; omega)]
        exact hgl2
      · intro a h1 _ h3
        rw [List.getElem?_set_ne (fun e => h3 (by subst e; exact ⟨gs, r1, r2⟩))]
        obtain ⟨T, rfl⟩ := hpre'
        exact List.getElem?_append_left h1
      · rcases List.mem_append.1 hx with hx | hx
        · exact .inl hx
        · rw [List.mem_singleton.1 hx]
          refine .inr (spare_new hread fun a h1 h2 => ?_)
          rw [List.getElem?_append_left (by rw [List.length_set]; omega), List.getElem?_set_ne (by omega)]

/-- A whole history. -/
theorem Inv.play (hg : gcv ≠ "__proto__") (es : List Event) :
    ∀ {H : List Obj} {F : List (IndexMap String Value)} {insts : List Instance} {b : Books} {boxes : List Box},
      Inv gcv H F insts b boxes → b.AllowsAll gcv es →
      ∃ H' F' insts' boxes', Runtime.play w insts es ⟨H, F, L⟩ = .ok (⟨H', F', L⟩, insts') ∧
        Inv gcv H' F' insts' (b.after es) boxes' ∧ Grows H F insts b boxes H' F' insts' (b.after es) boxes' := by
  induction es with
  | nil =>
    intro H F insts b boxes hi _
    exact ⟨H, F, insts, boxes, rfl, hi, .refl⟩
  | cons e es ih =>
    intro H F insts b boxes hi ha
    obtain ⟨ha1, ha2⟩ := ha
    cases e with
    | load i =>
      obtain ⟨H1, F1, boxes1, f, h1, h2, h2', _⟩ := hi.load (w := w) (L := L) ha1 hg
      obtain ⟨H', F', insts', boxes', h3, h4, h4'⟩ := ih h2 ha2
      refine ⟨H', F', insts', boxes', ?_, h4, h2'.trans h4'⟩
      unfold Runtime.play
      have h5 : playOne w insts (.load i) ⟨H, F, L⟩ = .ok (⟨H1, F1, L⟩, insts ++ [(f, i.covFn)]) := by
        simp only [playOne]
        rw [bind_ok h1]
        rfl
      rw [bind_ok h5]
      exact h3
    | hit n c =>
      obtain ⟨H1, F1, h1, h2, h2'⟩ := hi.hit (w := w) (L := L) ha1
      obtain ⟨H', F', insts', boxes', h3, h4, h4'⟩ := ih h2 ha2
      refine ⟨H', F', insts', boxes', ?_, h4, h2'.trans h4'⟩
      unfold Runtime.play
      rw [bind_ok h1]
      exact h3

end

end Verif.Runtime
