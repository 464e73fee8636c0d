import Verif.Lemmas.Loads
import Verif.Spec.Truth
/-
The truthiness wrapper, executed step by step.
-/
namespace Verif.Runtime
open Js Template

theorem scopeOf_push (F : List (IndexMap String Value)) (env : List Nat) (x : String) :
    scopeOf (F ++ [[]]) env x = scopeOf F env x := by
  induction env with
  | nil => rfl
  | cons i env ih =>
    unfold scopeOf
    by_cases hi : i < F.length
    · rw [List.getElem?_append_left hi, ih]
    · rw [List.getElem?_eq_none (by omega : F.length ≤ i)]
      by_cases hi' : i = F.length
      · subst hi'
        rw [List.getElem?_concat_length]
        simp [IndexMap.get, ih]
      · rw [List.getElem?_eq_none (by simp; omega)]
        exact ih

/-- The state between the parts of the wrapper: the data set and the coverage function are in place, the
temporary holds the value, and `Array` and `Object` are the built-in ones. -/
structure Ready (H : List Obj) (F : List (IndexMap String Value)) (env : List Nat) (x : Box) (inst : Instance)
    (e : Input × FileCoverage) (tmp : String) (v : Value) : Prop where
  held : Held H x e
  wired : Wired H F x.root inst
  sees : scopeOf F env inst.2 = some inst.1
  array : scopeOf F env "Array" = none
  object : scopeOf F env "Object" = none
  holds : ∃ ps, H[x.root]? = some ⟨.plain, some objectProto, ps⟩ ∧ ps.get tmp = some (.data v)
  inside : x.hi ≤ H.length

section
variable {w : World} {H : List Obj} {F : List (IndexMap String Value)} {L : List Nat} {env : List Nat} {x : Box}
  {inst : Instance} {e : Input × FileCoverage} {tmp : String} {v : Value}

theorem Ready.push (h : Ready H F env x inst e tmp v) : Ready H (F ++ [[]]) env x inst e tmp v :=
  ⟨h.held, h.wired.mono (List.prefix_append _ _) (fun _ _ h => h), (scopeOf_push ..).trans h.sees,
    (scopeOf_push ..).trans h.array, (scopeOf_push ..).trans h.object, h.holds, h.inside⟩

/-- New objects do not disturb. -/
theorem Ready.grow (h : Ready H F env x inst e tmp v) (o : Obj) : Ready (H ++ [o]) F env x inst e tmp v := by
  have hp : H <+: H ++ [o] := List.prefix_append _ _
  refine ⟨h.held.agree ((Agree.prefix hp x.lo).sub (Nat.le_refl _) h.inside), h.wired.mono (List.prefix_refl _) ?_,
    h.sees, h.array, h.object, ?_, ?_⟩
  · intro fa env' hf
    rw [List.getElem?_append_left (List.getElem?_eq_some_iff.1 hf).1]
    exact hf
  · obtain ⟨ps, h1, h2⟩ := h.holds
    refine ⟨ps, ?_, h2⟩
    rw [List.getElem?_append_left (List.getElem?_eq_some_iff.1 h1).1]
    exact h1
  · have := h.inside
    simp
    omega

/-- `cov().temp` -/
theorem Ready.keeps_ok (h : Ready H F env x inst e tmp v) (ht : tmp ≠ "__proto__") :
    expr w (call w 2) env (temp inst.2 tmp) ⟨H, F, L⟩ = .ok (⟨H, F ++ [[]], L⟩, v) := by
  obtain ⟨ps, h1, h2⟩ := h.holds
  exact call_field 1 h.wired h.sees h1 ht h2

theorem ident_array (h : Ready H F env x inst e tmp v) :
    expr w (call w 2) env (.ident "Array") ⟨H, F, L⟩ = .ok (⟨H, F, L⟩, .native "Array") := by
  rw [expr]
  unfold getVar
  simp only [h.array]
  rfl

theorem ident_object (h : Ready H F env x inst e tmp v) :
    expr w (call w 2) env (.ident "Object") ⟨H, F, L⟩ = .ok (⟨H, F, L⟩, .native "Object") := by
  rw [expr]
  unfold getVar
  simp only [h.object]
  rfl

/-- `native.member(cov().temp)` -/
theorem Ready.native_call (h : Ready H F env x inst e tmp v) (ht : tmp ≠ "__proto__") {o m f : String} {st' : State}
    {u : Value} (ho : expr w (call w 2) env (.ident o) ⟨H, F, L⟩ = .ok (⟨H, F, L⟩, .native o))
    (hm : nativeMember o m = .native f) (hc : callNative w f [v] ⟨H, F ++ [[]], L⟩ = .ok (st', u)) :
    expr w (call w 2) env (.call (.member (.ident o) m) (.ofList [temp inst.2 tmp])) ⟨H, F, L⟩ = .ok (st', u) := by
  have h1 : expr w (call w 2) env (.member (.ident o) m) ⟨H, F, L⟩ = .ok (⟨H, F, L⟩, .native f) := by
    rw [expr, bind_ok ho]
    show Except.ok (_, nativeMember o m) = _
    rw [hm]
  have h2 : exprs w (call w 2) env (.ofList [temp inst.2 tmp]) ⟨H, F, L⟩ = .ok (⟨H, F ++ [[]], L⟩, [v]) := by
    simp only [Exprs.ofList]
    rw [exprs, bind_ok (h.keeps_ok ht), bind_ok (by rw [exprs]; rfl)]
    rfl
  rw [expr, bind_ok h1, bind_ok h2]
  exact hc

/-- The values of data properties. -/
theorem cellValues_ok (ps : List (String × Cell)) (hg : ∀ k g, (k, Cell.getter g) ∉ ps) (st : State) :
    ∃ vs, cellValues w ps st = .ok (st, vs) ∧ vs.length = ps.length := by
  induction ps with
  | nil => exact ⟨[], rfl, rfl⟩
  | cons p ps ih =>
    obtain ⟨k, c⟩ := p
    obtain ⟨vs, h1, h2⟩ := ih fun k g hm => hg k g (List.mem_cons_of_mem _ hm)
    cases c with
    | getter g => exact (hg k g List.mem_cons_self).elim
    | data v =>
      refine ⟨v :: vs, ?_, by simp [h2]⟩
      unfold cellValues
      rw [bind_ok (show readCell w (some (.data v)) st = .ok (st, v) from rfl), bind_ok h1]
      rfl

theorem elements_length (i : Nat) (vs : List Value) : (elements i vs).length = vs.length := by
  induction vs generalizing i with
  | nil => rfl
  | cons v vs ih => simp [elements, ih]

/-- What validation leaves behind: perhaps one more object, and some empty scopes. -/
def Validated (w : World) (H : List Obj) (F : List (IndexMap String Value)) (L : List Nat) (env : List Nat) (x : Box)
    (inst : Instance) (e : Input × FileCoverage) (tmp : String) (v : Value) (c : Bool) (ex : Expr) : Prop :=
  ∃ H' F' r, expr w (call w 2) env ex ⟨H, F, L⟩ = .ok (⟨H', F', L⟩, r) ∧ r.truthy = c ∧ H <+: H' ∧ F <+: F' ∧
    Ready H' F' env x inst e tmp v

/-- `!Array.isArray(temp) || temp.length` -/
theorem left_ok (h : Ready H F env x inst e tmp v) (ht : tmp ≠ "__proto__") :
    ∃ F' r, expr w (call w 2) env (.paren (.or (.not (.call (.member (.ident "Array") "isArray")
        (.ofList [temp inst.2 tmp]))) (.member (temp inst.2 tmp) "length"))) ⟨H, F, L⟩ = .ok (⟨H, F', L⟩, r) ∧
      r.truthy = !emptyArray H v ∧ F <+: F' ∧ Ready H F' env x inst e tmp v := by
  have hcall : ∀ u, isArray v ⟨H, F ++ [[]], L⟩ = .ok (⟨H, F ++ [[]], L⟩, u) →
      expr w (call w 2) env (.not (.call (.member (.ident "Array") "isArray") (.ofList [temp inst.2 tmp]))) ⟨H, F, L⟩
        = .ok (⟨H, F ++ [[]], L⟩, .bool (!u.truthy)) := by
    intro u hu
    rw [expr, bind_ok (h.native_call (m := "isArray") (f := "Array.isArray") ht (ident_array h) rfl hu)]
    rfl
  have hno : isArray v ⟨H, F ++ [[]], L⟩ = .ok (⟨H, F ++ [[]], L⟩, .bool false) → emptyArray H v = false →
      ∃ F' r, expr w (call w 2) env (.paren (.or (.not (.call (.member (.ident "Array") "isArray")
        (.ofList [temp inst.2 tmp]))) (.member (temp inst.2 tmp) "length"))) ⟨H, F, L⟩ = .ok (⟨H, F', L⟩, r) ∧
      r.truthy = !emptyArray H v ∧ F <+: F' ∧ Ready H F' env x inst e tmp v := by
    intro hu he
    refine ⟨F ++ [[]], .bool true, ?_, by rw [he]; rfl, List.prefix_append _ _, h.push⟩
    rw [expr, expr, bind_ok (hcall _ hu)]
    rfl
  cases v with
  | ref a =>
    cases ha : H[a]? with
    | none =>
      refine hno ?_ ?_
      · unfold isArray; simp only [ha]
      · unfold emptyArray; simp only [ha]
    | some o =>
      obtain ⟨c, p, ps⟩ := o
      cases c with
      | array =>
        have hu : isArray (.ref a) ⟨H, F ++ [[]], L⟩ = .ok (⟨H, F ++ [[]], L⟩, .bool true) := by
          unfold isArray; simp only [ha]
        refine ⟨F ++ [[]] ++ [[]], .num ps.length, ?_, ?_,
          (List.prefix_append _ _).trans (List.prefix_append _ _), h.push.push⟩
        · rw [expr, expr, bind_ok (hcall _ hu), if_neg (by decide), expr, bind_ok (h.push.keeps_ok ht)]
          show getRef w a "length" _ = _
          unfold getRef
          simp only [ha]
          rw [if_neg (by decide)]
          rfl
        · simp only [emptyArray, ha]
          cases ps <;> rfl
      | _ =>
        refine hno ?_ ?_
        · unfold isArray; simp only [ha]
        · unfold emptyArray; simp only [ha]
  | _ => exact hno rfl rfl

/-- `Object.getPrototypeOf(temp) !== Object.prototype || Object.values(temp).length` -/
theorem right_ok (h : Ready H F env x inst e tmp v) (ht : tmp ≠ "__proto__") (hp : Passive H v)
    (htr : v.truthy = true) :
    Validated w H F L env x inst e tmp v (!emptyObject H v)
      (.paren (.or (.ne (.call (.member (.ident "Object") "getPrototypeOf") (.ofList [temp inst.2 tmp]))
        (.member (.ident "Object") "prototype"))
      (.member (.call (.member (.ident "Object") "values") (.ofList [temp inst.2 tmp])) "length"))) := by
  have hne : ∀ u, getPrototypeOf w v ⟨H, F ++ [[]], L⟩ = .ok (⟨H, F ++ [[]], L⟩, u) →
      expr w (call w 2) env (.ne (.call (.member (.ident "Object") "getPrototypeOf") (.ofList [temp inst.2 tmp]))
        (.member (.ident "Object") "prototype")) ⟨H, F, L⟩
        = .ok (⟨H, F ++ [[]], L⟩, .bool (u ≠ .ref objectProto || u = .nan)) := by
    intro u hu
    have hpr : expr w (call w 2) env (.member (.ident "Object") "prototype") ⟨H, F ++ [[]], L⟩
        = .ok (⟨H, F ++ [[]], L⟩, .ref objectProto) := by
      rw [expr, bind_ok (ident_object h.push)]
      rfl
    rw [expr, bind_ok (h.native_call (m := "getPrototypeOf") (f := "Object.getPrototypeOf") ht (ident_object h) rfl hu), bind_ok hpr]
    rfl
  have hno : ∀ u, getPrototypeOf w v ⟨H, F ++ [[]], L⟩ = .ok (⟨H, F ++ [[]], L⟩, u) → u ≠ .ref objectProto →
      emptyObject H v = false → Validated w H F L env x inst e tmp v (!emptyObject H v)
      (.paren (.or (.ne (.call (.member (.ident "Object") "getPrototypeOf") (.ofList [temp inst.2 tmp]))
        (.member (.ident "Object") "prototype"))
      (.member (.call (.member (.ident "Object") "values") (.ofList [temp inst.2 tmp])) "length"))) := by
    intro u hu hn he
    refine ⟨H, F ++ [[]], .bool true, ?_, by rw [he]; rfl, List.prefix_refl _, List.prefix_append _ _, h.push⟩
    rw [expr, expr, bind_ok (hne u hu)]
    have : (decide (u ≠ .ref objectProto) || decide (u = .nan)) = true := by simp [hn]
    rw [this]
    rfl
  cases v with
  | undef => cases htr
  | null => cases htr
  | ref a =>
    obtain ⟨o, ha, hcls, hget⟩ := hp a rfl
    have hu : getPrototypeOf w (.ref a) ⟨H, F ++ [[]], L⟩ = .ok (⟨H, F ++ [[]], L⟩, protoOf o) := by
      unfold getPrototypeOf
      simp only [ha]
    by_cases hpo : o.proto = some objectProto
    · obtain ⟨c, p, ps⟩ := o
      simp only at hpo hget hcls
      subst hpo
      obtain ⟨vs, h1, h2⟩ := cellValues_ok (w := w) ps (hget rfl) ⟨H, F ++ [[]] ++ [[]], L⟩
      have hv : callNative w "Object.values" [.ref a] ⟨H, F ++ [[]] ++ [[]], L⟩
          = .ok (⟨H ++ [⟨.array, some arrayProto, elements 0 vs⟩], F ++ [[]] ++ [[]], L⟩, .ref H.length) := by
        show objectValues w (.ref a) _ = _
        unfold objectValues
        have ho : ownProps (.ref a) ⟨H, F ++ [[]] ++ [[]], L⟩ = .ok (⟨H, F ++ [[]] ++ [[]], L⟩, ps) := by
          unfold ownProps
          simp only [ha]
        rw [bind_ok ho, bind_ok h1]
        rfl
      refine ⟨H ++ [⟨.array, some arrayProto, elements 0 vs⟩], F ++ [[]] ++ [[]], .num ps.length, ?_, ?_,
        List.prefix_append _ _, (List.prefix_append _ _).trans (List.prefix_append _ _), (h.push.push).grow _⟩
      · rw [expr, expr, bind_ok (hne _ hu)]
        have : (decide (protoOf ⟨c, some objectProto, ps⟩ ≠ .ref objectProto)
            || decide (protoOf ⟨c, some objectProto, ps⟩ = .nan)) = false := by simp [protoOf]
        rw [this, if_neg (by decide), expr, bind_ok (h.push.native_call (m := "values") ht (ident_object h.push) rfl hv)]
        show getRef w H.length "length" _ = _
        unfold getRef
        simp only [List.getElem?_concat_length]
        rw [if_neg (by decide)]
        show Except.ok (_, Value.num (elements 0 vs).length) = _
        rw [elements_length, h2]
      · simp only [emptyObject, ha]
        cases ps <;> rfl
    · refine hno _ hu ?_ ?_
      · unfold protoOf
        intro hc
        split at hc
        · rename_i p hp'
          injection hc with hc
          subst hc
          exact hpo hp'
        · cases hc
      · unfold emptyObject
        simp only [ha]
        split
        · rename_i c p he
          injection he with he
          subst he
          simp only [beq_eq_false_iff_ne, ne_eq]
          intro hc
          subst hc
          exact hpo rfl
        · rfl
  | _ => exact hno _ rfl (by simp) rfl

theorem truthy_eq (v : Value) : v.truthy = !falsy v := by
  unfold falsy
  split <;> try rfl
  next h1 h2 h3 h4 h5 h6 h7 =>
    cases v with
    | undef => exact absurd rfl h1
    | null => exact absurd rfl h2
    | bool b =>
      cases b with
      | true => rfl
      | false => exact absurd rfl h3
    | num n => exact decide_eq_true fun h => h4 (by rw [h])
    | nan => exact absurd rfl h5
    | str s => exact decide_eq_true fun h => h6 (by rw [h])
    | prim t b =>
      cases b with
      | true => rfl
      | false => exact absurd rfl (h7 t)
    | native _ => rfl
    | ref _ => rfl

/-- The test of the wrapper comes out as specified. -/
theorem validate_ok (h : Ready H F env x inst e tmp v) (ht : tmp ≠ "__proto__") (hp : Passive H v) :
    Validated w H F L env x inst e tmp v (counted H v) (validate inst.2 tmp) := by
  unfold validate counted
  rw [← truthy_eq]
  by_cases htr : v.truthy = true
  · obtain ⟨F1, r1, a1, a2, a3, a4⟩ := left_ok (w := w) (L := L) h.push ht
    cases he : emptyArray H v with
    | true =>
      rw [he] at a2
      refine ⟨H, F1, r1, ?_, by simp [a2], List.prefix_refl _, (List.prefix_append _ _).trans a3, a4⟩
      rw [expr, bind_ok (h.keeps_ok ht), if_pos htr, expr, bind_ok a1, if_neg (by simp [a2])]
      rfl
    | false =>
      rw [he] at a2
      obtain ⟨H2, F2, r2, b1, b2, b3, b4, b5⟩ := right_ok (w := w) (L := L) a4 ht hp htr
      refine ⟨H2, F2, r2, ?_, by simp [b2, htr], b3, ((List.prefix_append _ _).trans a3).trans b4, b5⟩
      rw [expr, bind_ok (h.keeps_ok ht), if_pos htr, expr, bind_ok a1, if_pos (by simp [a2])]
      exact b1
  · refine ⟨H, F ++ [[]], v, ?_, by simp [htr], List.prefix_refl _, List.prefix_append _ _, h.push⟩
    rw [expr, bind_ok (h.keeps_ok ht), if_neg htr]
    rfl

end

theorem tempName_suffix (cov : String) : "_temp".toList <:+ (tempName cov).toList := by
  unfold tempName
  rw [String.toList_append]
  exact List.suffix_append _ _

/-- The temporary is none of the properties that hold data. -/
theorem tempName_fresh (cov : String) : tempName cov ∉ fieldNames ∧ tempName cov ≠ "__proto__" := by
  have h := tempName_suffix cov
  constructor
  · intro hm
    have : ∀ t ∈ fieldNames, ¬ "_temp".toList <:+ t.toList := by decide +kernel
    exact this _ hm h
  · intro e
    rw [e] at h
    exact absurd h (by decide +kernel)

section
variable {w : World} {gcv : String} {H : List Obj} {F : List (IndexMap String Value)} {L : List Nat}
  {insts : List Instance} {b : Books} {boxes : List Box} {env : List Nat}

theorem insert_ne_nil {m : IndexMap String Cell} {k : String} {c : Cell} : m.insert k c ≠ [] := by
  cases m with
  | nil => simp [IndexMap.insert]
  | cons p m =>
    obtain ⟨k', c'⟩ := p
    simp only [IndexMap.insert]
    split <;> simp

theorem mem_insert {m : IndexMap String Cell} {k : String} {c : Cell} {p : String × Cell} (h : p ∈ m.insert k c) :
    p ∈ m ∨ p = (k, c) := by
  induction m with
  | nil =>
    simp only [IndexMap.insert, List.mem_singleton] at h
    exact Or.inr h
  | cons p' m ih =>
    obtain ⟨k', c'⟩ := p'
    simp only [IndexMap.insert] at h
    split at h
    · rename_i hk
      rcases List.mem_cons.1 h with h | h
      · subst hk
        exact Or.inr h
      · exact Or.inl (List.mem_cons_of_mem _ h)
    · rcases List.mem_cons.1 h with h | h
      · exact Or.inl (by rw [h]; exact List.mem_cons_self)
      · rcases ih h with h | h
        · exact Or.inl (List.mem_cons_of_mem _ h)
        · exact Or.inr h

/-- Storing the temporary does not change what the value is. -/
theorem counted_set {root : Nat} {ps : IndexMap String Cell} {tmp : String} {v u : Value}
    (hr : H[root]? = some ⟨.plain, some objectProto, ps⟩) (hps : ps ≠ []) :
    counted (H.set root ⟨.plain, some objectProto, ps.insert tmp (.data u)⟩) v = counted H v ∧
    (Passive H v → Passive (H.set root ⟨.plain, some objectProto, ps.insert tmp (.data u)⟩) v) := by
  have hself : (H.set root ⟨.plain, some objectProto, ps.insert tmp (.data u)⟩)[root]?
      = some ⟨.plain, some objectProto, ps.insert tmp (.data u)⟩ := List.getElem?_set_self (lt_of_getElem? hr)
  have hne := insert_ne_nil (m := ps) (k := tmp) (c := .data u)
  cases v with
  | ref a =>
    by_cases ha : a = root
    · subst ha
      constructor
      · unfold counted
        cases ps with
        | nil => exact absurd rfl hps
        | cons p ps =>
          cases hps' : IndexMap.insert (p :: ps) tmp (Cell.data u) with
          | nil => exact absurd hps' hne
          | cons q qs =>
            rw [hps'] at hself
            simp only [emptyArray, emptyObject, hr, hself]
      · intro hp b' hb
        injection hb with hb
        subst hb
        obtain ⟨o, h1, h2, h3⟩ := hp a rfl
        rw [hr] at h1
        injection h1 with h1
        subst h1
        refine ⟨_, hself, h2, fun hpo k g hm => ?_⟩
        rcases mem_insert hm with hm | hm
        · exact h3 hpo k g hm
        · injection hm with _ hm
          cases hm
    · have hout : (H.set root ⟨.plain, some objectProto, ps.insert tmp (.data u)⟩)[a]? = H[a]? :=
        List.getElem?_set_ne fun e => ha e.symm
      constructor
      · simp only [counted, emptyArray, emptyObject, hout]
      · intro hp b' hb
        injection hb with hb
        subst hb
        obtain ⟨o, h1, h2⟩ := hp a rfl
        exact ⟨o, hout.trans h1, h2⟩
  | _ =>
    refine ⟨rfl, fun _ b' hb => ?_⟩
    cases hb

/-- Storing the temporary keeps the data set. -/
theorem Held.put {x : Box} {e : Input × FileCoverage} (h : Held H x e) {tmp : String} (ht : tmp ∉ fieldNames)
    (htn : ∃ cov, tmp = tempName cov) (hb : e.2.bT.isSome) (u : Value) : ∃ ps, H[x.root]? = some ⟨.plain, some objectProto, ps⟩ ∧ ps ≠ [] ∧
      Held (H.set x.root ⟨.plain, some objectProto, ps.insert tmp (.data u)⟩) x e := by
  obtain ⟨ps, m, h1, h2, h3, h4, h5⟩ := h
  refine ⟨ps, h1, ?_, _, m, List.getElem?_set_self (lt_of_getElem? h1), h2, h3, ?_, ?_⟩
  · intro hps
    subst hps
    have := h4.keys
    rw [dataFields_keys] at this
    cases this
  · have hk : known (ps.insert tmp (.data u)) = known ps :=
      IndexMap.filter_insert (p := fun k => decide (k ∈ fieldNames)) (by simpa using ht)
    rw [hk]
    exact h4.agree (fun a ha1 ha2 => List.getElem?_set_ne (by omega))
  · intro c hc
    obtain ⟨cov, rfl⟩ := htn
    rcases mem_insert hc with hc | hc
    · exact h5 c hc
    · exact Or.inr ⟨hb, cov, u, hc⟩

/-- What the wrapper does once the operand has been evaluated. -/
theorem Inv.tested (hi : Inv gcv H F insts b boxes) {k m branch arm n : Nat} {inst : Instance}
    {e : Input × FileCoverage} {x : Box} {v : Value} (hinst : insts[k]? = some inst) (hm : b.writes[k]? = some m)
    (he : b.sets[m]? = some e) (hx : boxes[m]? = some x) (hn : e.2.count (.bT branch arm) = some n)
    (hs : scopeOf F env inst.2 = some inst.1) (ha : scopeOf F env "Array" = none)
    (ho : scopeOf F env "Object" = none) (hp : Passive H v) :
    ∃ ps H' F' r, H[x.root]? = some ⟨.plain, some objectProto, ps⟩ ∧
      exprs w (call w 2) env (.ofList
        [.paren (.cond (validate inst.2 (tempName inst.2)) (counter inst.2 (.bT branch arm)) .null),
         temp inst.2 (tempName inst.2)])
        ⟨H.set x.root ⟨.plain, some objectProto, ps.insert (tempName inst.2) (.data v)⟩, F, L⟩
        = .ok (⟨H', F', L⟩, [r, v]) ∧ F <+: F' ∧
      Inv gcv H' F' insts (if counted H v then b.hit k (.bT branch arm) else b) boxes ∧
      H.length ≤ H'.length ∧ (∀ a, a < H.length → a < x.lo ∨ x.hi ≤ a → H'[a]? = H[a]?) ∧
      ∀ (fa : Nat) (env : List Nat), H[fa]? = some (getter env) → H'[fa]? = some (getter env) := by
  obtain ⟨ht1, ht2⟩ := tempName_fresh inst.2
  have ht3 : ∃ cov, tempName inst.2 = tempName cov := ⟨_, rfl⟩
  generalize tempName inst.2 = tmp at ht1 ht2 ht3
  have hh := hi.held m x e hx he
  have hbT : e.2.bT.isSome := by
    cases hb : e.2.bT with
    | none =>
      unfold FileCoverage.count at hn
      rw [hb] at hn
      cases hn
    | some t => rfl
  obtain ⟨ps, h1, hps, h2⟩ := hh.put ht1 ht3 hbT v
  have hl := hh.lo_le
  have hin := hi.inside x (List.mem_of_getElem? hx)
  obtain ⟨c1, c2⟩ := counted_set (tmp := tmp) (v := v) (u := v) h1 hps
  have hset : b.sets.set m e = b.sets := by
    apply List.ext_getElem?
    intro n'
    rw [List.getElem?_set]
    split
    · rename_i hmn
      subst hmn
      rw [if_pos (lt_of_getElem? he), he]
    · rfl
  have hi1 : Inv gcv (H.set x.root ⟨.plain, some objectProto, ps.insert tmp (.data v)⟩) F insts b boxes := by
    have := hi.inbox hx he h1 (fun env hc => by cases hc) hl.1 hl.2.1 h2
    rw [hset] at this
    exact this
  have hout1 : ∀ a, a < x.lo ∨ x.hi ≤ a →
      (H.set x.root ⟨.plain, some objectProto, ps.insert tmp (.data v)⟩)[a]? = H[a]? :=
    fun a ha => List.getElem?_set_ne (by omega)
  have hlen1 : (H.set x.root ⟨.plain, some objectProto, ps.insert tmp (.data v)⟩).length = H.length :=
    List.length_set ..
  have hroot1 : (H.set x.root ⟨.plain, some objectProto, ps.insert tmp (.data v)⟩)[x.root]?
      = some ⟨.plain, some objectProto, ps.insert tmp (.data v)⟩ := List.getElem?_set_self hl.2.2
  have hclo1 : ∀ (fa : Nat) (env : List Nat), H[fa]? = some (getter env) →
      (H.set x.root ⟨.plain, some objectProto, ps.insert tmp (.data v)⟩)[fa]? = some (getter env) := by
    intro fa env' hf
    rw [List.getElem?_set_ne]
    · exact hf
    · intro e'
      subst e'
      rw [h1] at hf
      injection hf with hf
      injection hf with hf
      cases hf
  refine ⟨ps, ?_⟩
  generalize H.set x.root ⟨.plain, some objectProto, ps.insert tmp (.data v)⟩ = H1 at *
  obtain ⟨x', hx', hw⟩ := hi1.wired k inst m hinst hm
  rw [hx] at hx'
  injection hx' with hx'
  subst hx'
  have hready : Ready H1 F env x inst e tmp v :=
    ⟨h2, hw, hs, ha, ho, ⟨_, hroot1, by rw [IndexMap.get_insert, if_pos rfl]⟩, by omega⟩
  obtain ⟨H2, F2, r, v1, v2, v3, v4, v5⟩ := validate_ok (w := w) (L := L) hready ht2 (c2 hp)
  rw [c1] at v2
  have hi2 := hi1.extend v3 v4
  have hle := v3.length_le
  have hout2 : ∀ a, a < H.length → a < x.lo ∨ x.hi ≤ a → H2[a]? = H[a]? := by
    intro a ha1 ha2
    obtain ⟨T, rfl⟩ := v3
    rw [List.getElem?_append_left (by omega)]
    exact hout1 a ha2
  have hclo2 : ∀ (fa : Nat) (env : List Nat), H[fa]? = some (getter env) → H2[fa]? = some (getter env) :=
    fun fa env' hf => prefix_get v3 (hclo1 fa env' hf)
  cases hc : counted H v with
  | false =>
    rw [hc] at v2
    have e1 : expr w (call w 2) env (.paren (.cond (validate inst.2 tmp) (counter inst.2 (.bT branch arm)) .null))
        ⟨H1, F, L⟩ = .ok (⟨H2, F2, L⟩, .null) := by
      rw [expr, expr, bind_ok v1, if_neg (by simp [v2]), expr]
      rfl
    refine ⟨H2, F2 ++ [[]], .null, h1, ?_, v4.trans (List.prefix_append _ _), ?_, by omega, hout2, hclo2⟩
    · simp only [Exprs.ofList]
      rw [exprs, bind_ok e1, exprs, bind_ok (bind_ok (v5.keeps_ok ht2))]
      rfl
    · rw [if_neg (by simp)]
      exact hi2.extend (List.prefix_refl _) (List.prefix_append _ _)
  | true =>
    rw [hc] at v2
    obtain ⟨H3, k1, k2, k3, k4, k5⟩ := hi2.hits (w := w) (L := L) hinst hm he hx hn v5.sees
    have e1 : expr w (call w 2) env (.paren (.cond (validate inst.2 tmp) (counter inst.2 (.bT branch arm)) .null))
        ⟨H1, F, L⟩ = .ok (⟨H3, F2 ++ [[]], L⟩, .num n) := by
      rw [expr, expr, bind_ok v1, if_pos v2]
      exact k1
    obtain ⟨x', hx', hw3⟩ := k4.wired k inst m hinst (by
      unfold Books.hit
      rw [hm]
      exact hm)
    rw [hx] at hx'
    injection hx' with hx'
    subst hx'
    obtain ⟨ps', q1, q2⟩ := v5.holds
    have e2 : expr w (call w 2) env (temp inst.2 tmp) ⟨H3, F2 ++ [[]], L⟩ = .ok (⟨H3, F2 ++ [[]] ++ [[]], L⟩, v) :=
      call_field 1 hw3 ((scopeOf_push ..).trans v5.sees) ((k3 _ (Or.inr (Or.inr rfl))).trans q1) ht2 q2
    refine ⟨H3, F2 ++ [[]] ++ [[]], .num n, h1, ?_,
      (v4.trans (List.prefix_append _ _)).trans (List.prefix_append _ _), ?_, by omega, ?_,
      fun fa env' hf => k5 fa env' (hclo2 fa env' hf)⟩
    · simp only [Exprs.ofList]
      rw [exprs, bind_ok e1, exprs, bind_ok (bind_ok e2)]
      rfl
    · rw [if_pos rfl]
      exact k4.extend (List.prefix_refl _) (List.prefix_append _ _)
    · intro a ha1 ha2
      rw [k3 a (by omega)]
      exact hout2 a ha1 ha2

end
end Verif.Runtime
