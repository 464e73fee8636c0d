import Verif.Spec.Data
import Verif.Lemmas.IndexMap
/-
Evaluation of the JavaScript fragment: computations, reading trees off the heap, evaluating literals.
-/
namespace Verif.Js

theorem bind_ok {α β : Type} {x : M α} {f : α → M β} {st st' : State} {a : α}
    (h : x st = .ok (st', a)) : (x >>= f) st = f a st' := by
  show M.bind x f st = _
  unfold M.bind
  rw [h]

theorem pure_ok {α : Type} (a : α) (st : State) : (pure a : M α) st = .ok (st, a) := rfl

/-! ### Numerals -/

theorem toString_inj {m n : Nat} (h : toString m = toString n) : m = n := by
  have h' := congrArg (fun s => Nat.ofDigitChars 10 (String.toList s) 0) h
  simpa [Nat.toString_eq_repr, Nat.toList_repr] using h'

theorem ofDigits_toString (n : Nat) : Nat.ofDigitChars 10 (toString n).toList 0 = n := by
  simp [Nat.toString_eq_repr, Nat.toList_repr]

theorem key_toString (n : Nat) : Data.key (toString n) = some n := by
  unfold Data.key
  simp only [ofDigits_toString, if_true]

/-- A decimal numeral starts with a digit. -/
theorem toString_ne {n : Nat} {s : String} (h : ∀ c ∈ s.toList, ¬ c.isDigit) : toString n ≠ s := by
  intro e
  have hn : (toString n).toList ≠ [] := by
    rw [Nat.toString_eq_repr, Nat.toList_repr]
    exact Nat.toDigits_ne_nil
  have hd : ∀ c ∈ (toString n).toList, c.isDigit := by
    intro c hc
    rw [Nat.toString_eq_repr, Nat.toList_repr] at hc
    exact Nat.isDigit_of_mem_toDigits (by decide) (by decide) hc
  rw [e] at hn hd
  obtain ⟨c, hc⟩ := List.exists_mem_of_ne_nil _ hn
  exact h c hc (hd c hc)

theorem toString_ne_proto (n : Nat) : toString n ≠ "__proto__" := toString_ne (by decide)

/-! ### Trees on the heap -/

/-- The heaps have the same objects at the addresses from `lo` to below `hi`. -/
def Agree (h h' : List Obj) (lo hi : Nat) : Prop := ∀ a, lo ≤ a → a < hi → h'[a]? = h[a]?

theorem Agree.sub {h h' : List Obj} {lo hi lo' hi' : Nat} (ha : Agree h h' lo hi) (h1 : lo ≤ lo')
    (h2 : hi' ≤ hi) : Agree h h' lo' hi' :=
  fun a ha1 ha2 => ha a (Nat.le_trans h1 ha1) (Nat.lt_of_lt_of_le ha2 h2)

theorem Agree.prefix {h h' : List Obj} (hp : h <+: h') (lo : Nat) : Agree h h' lo h.length := by
  intro a _ ha
  obtain ⟨t, rfl⟩ := hp
  exact List.getElem?_append_left ha

theorem Agree.set {h : List Obj} {lo hi a : Nat} (o : Obj) (ha : a < lo ∨ hi ≤ a) :
    Agree h (h.set a o) lo hi := by
  intro b h1 h2
  exact List.getElem?_set_ne (by omega)

theorem Agree.refl (h : List Obj) (lo hi : Nat) : Agree h h lo hi := fun _ _ _ => rfl

theorem Agree.trans {h h' h'' : List Obj} {lo hi : Nat} (h1 : Agree h h' lo hi) (h2 : Agree h' h'' lo hi) :
    Agree h h'' lo hi := fun a ha hb => (h2 a ha hb).trans (h1 a ha hb)

mutual
theorem Reads.le {h : List Obj} {lo hi : Nat} {v : Value} {d : Data} : Reads h lo hi v d → lo ≤ hi
  | .null hl => hl
  | .bool _ hl => hl
  | .num _ hl => hl
  | .str _ hl => hl
  | .obj _ hm ha hr => Nat.le_trans hr.le (Nat.le_trans hm (Nat.le_of_lt ha))
  | .arr _ hm ha hr => Nat.le_trans hr.le (Nat.le_trans hm (Nat.le_of_lt ha))

theorem ReadsAll.le {h : List Obj} {lo hi : Nat} {ps : List (String × Cell)} {fs : List (String × Data)} :
    ReadsAll h lo hi ps fs → lo ≤ hi
  | .nil hl => hl
  | .cons hr hs => Nat.le_trans hr.le hs.le
end

mutual
/-- A tree is not affected by what happens outside its addresses. -/
theorem Reads.agree {h h' : List Obj} {lo hi : Nat} {v : Value} {d : Data} :
    Reads h lo hi v d → Agree h h' lo hi → Reads h' lo hi v d
  | .null hl, _ => .null hl
  | .bool _ hl, _ => .bool _ hl
  | .num _ hl, _ => .num _ hl
  | .str _ hl, _ => .str _ hl
  | .obj hh hm ha hr, hag =>
    .obj ((hag _ (Nat.le_trans hr.le hm) ha).trans hh) hm ha
      (hr.agree (hag.sub (Nat.le_refl _) (Nat.le_of_lt (Nat.lt_of_le_of_lt hm ha))))
  | .arr hh hm ha hr, hag =>
    .arr ((hag _ (Nat.le_trans hr.le hm) ha).trans hh) hm ha
      (hr.agree (hag.sub (Nat.le_refl _) (Nat.le_of_lt (Nat.lt_of_le_of_lt hm ha))))

theorem ReadsAll.agree {h h' : List Obj} {lo hi : Nat} {ps : List (String × Cell)}
    {fs : List (String × Data)} : ReadsAll h lo hi ps fs → Agree h h' lo hi → ReadsAll h' lo hi ps fs
  | .nil hl, _ => .nil hl
  | .cons hr hs, hag =>
    .cons (hr.agree (hag.sub (Nat.le_refl _) hs.le)) (hs.agree (hag.sub hr.le (Nat.le_refl _)))
end

/-- The interval may be larger at the top. -/
theorem Reads.mono {h : List Obj} {lo hi hi' : Nat} {v : Value} {d : Data} (hr : Reads h lo hi v d)
    (hl : hi ≤ hi') : Reads h lo hi' v d := by
  cases hr with
  | null hl' => exact .null (Nat.le_trans hl' hl)
  | bool b hl' => exact .bool b (Nat.le_trans hl' hl)
  | num b hl' => exact .num b (Nat.le_trans hl' hl)
  | str b hl' => exact .str b (Nat.le_trans hl' hl)
  | obj hh hm ha hr => exact .obj hh hm (Nat.lt_of_lt_of_le ha hl) hr
  | arr hh hm ha hr => exact .arr hh hm (Nat.lt_of_lt_of_le ha hl) hr

/-! ### Literals -/

mutual
/-- The tree an expression made of literals only stands for. Keys have to be distinct, and none may be
`__proto__`. -/
def denote : Expr → Option Data
  | .str s _ => some (.str s)
  | .num n => some (.num n)
  | .bool b => some (.bool b)
  | .null => some .null
  | .obj ps =>
    match denoteProps ps with
    | none => none
    | some fs =>
      if (fs.map Prod.fst).Nodup ∧ "__proto__" ∉ fs.map Prod.fst then some (.obj fs) else none
  | .arr es =>
    match denoteExprs es with
    | none => none
    | some l => some (.arr l)
  | _ => none

/-- The fields of an object literal. -/
def denoteProps : Props → Option (List (String × Data))
  | .nil => some []
  | .cons k e ps =>
    match denote e, denoteProps ps with
    | some d, some fs => some ((k, d) :: fs)
    | _, _ => none

/-- The elements of an array literal. -/
def denoteExprs : Exprs → Option (List Data)
  | .nil => some []
  | .cons e es =>
    match denote e, denoteExprs es with
    | some d, some l => some (d :: l)
    | _, _ => none
end

/-- Values as properties. -/
def asCells (kvs : List (String × Value)) : List (String × Cell) := kvs.map fun e => (e.1, .data e.2)

theorem insert_fresh {V : Type} {m : IndexMap String V} {k : String} {v : V} (h : k ∉ m.map Prod.fst) :
    IndexMap.insert m k v = m ++ [(k, v)] := by
  induction m with
  | nil => rfl
  | cons e m ih =>
    obtain ⟨k', v'⟩ := e
    simp only [List.map_cons, List.mem_cons, not_or] at h
    simp only [IndexMap.insert, List.cons_append]
    rw [if_neg (fun e => h.1 e.symm), ih h.2]

theorem literal_props (kvs : List (String × Value)) (c : Cls) (p : Option Nat) (ps : IndexMap String Cell)
    (hn : (ps.map Prod.fst ++ kvs.map Prod.fst).Nodup) (hp : "__proto__" ∉ kvs.map Prod.fst) :
    literal kvs ⟨c, p, ps⟩ = ⟨c, p, ps ++ asCells kvs⟩ := by
  induction kvs generalizing ps with
  | nil => simp [literal, asCells]
  | cons e kvs ih =>
    obtain ⟨k, v⟩ := e
    simp only [List.map_cons, List.mem_cons, not_or] at hp hn
    have hk : k ∉ ps.map Prod.fst := by
      intro hk
      have := List.nodup_append.1 hn
      exact this.2.2 k hk k List.mem_cons_self rfl
    unfold literal
    have hs : Obj.set ⟨c, p, ps⟩ k v = ⟨c, p, ps ++ [(k, .data v)]⟩ := by
      unfold Obj.set
      rw [if_neg (fun e => hp.1 e.symm)]
      simp only
      rw [insert_fresh hk]
    rw [hs, ih _ (by simpa using hn) hp.2]
    simp [asCells]

theorem ReadsAll.keys {h : List Obj} {lo hi : Nat} {ps : List (String × Cell)} {fs : List (String × Data)}
    (hr : ReadsAll h lo hi ps fs) : ps.map Prod.fst = fs.map Prod.fst := by
  induction fs generalizing lo ps with
  | nil => cases hr; rfl
  | cons e fs ih =>
    cases hr with
    | cons hr hs => simp [ih hs]

theorem asCells_keys (kvs : List (String × Value)) : (asCells kvs).map Prod.fst = kvs.map Prod.fst := by
  simp [asCells]

theorem getElem?_length {α : Type} (l : List α) (a : α) : (l ++ [a])[l.length]? = some a := by simp

section
variable (w : World) (call : Value → List Value → M Value) (env : List Nat)

mutual
/-- Literals evaluate to the tree they stand for, on new objects. -/
theorem lit_expr (e : Expr) (d : Data) (hd : denote e = some d) (st : State) :
    ∃ h' v, expr w call env e st = .ok ({ st with heap := h' }, v) ∧ st.heap <+: h' ∧
      Reads h' st.heap.length h'.length v d := by
  match e with
  | .str s raw =>
    simp only [denote, Option.some.injEq] at hd
    subst hd
    exact ⟨st.heap, _, by rw [expr]; rfl, List.prefix_refl _, .str _ (Nat.le_refl _)⟩
  | .num n =>
    simp only [denote, Option.some.injEq] at hd
    subst hd
    exact ⟨st.heap, _, by rw [expr]; rfl, List.prefix_refl _, .num _ (Nat.le_refl _)⟩
  | .bool n =>
    simp only [denote, Option.some.injEq] at hd
    subst hd
    exact ⟨st.heap, _, by rw [expr]; rfl, List.prefix_refl _, .bool _ (Nat.le_refl _)⟩
  | .null =>
    simp only [denote, Option.some.injEq] at hd
    subst hd
    exact ⟨st.heap, _, by rw [expr]; rfl, List.prefix_refl _, .null (Nat.le_refl _)⟩
  | .obj ps =>
    simp only [denote] at hd
    cases hps : denoteProps ps with
    | none => rw [hps] at hd; cases hd
    | some fs =>
      rw [hps] at hd
      simp only at hd
      split at hd
      · rename_i hn
        injection hd with hd
        subst hd
        obtain ⟨h', kvs, h1, h2, h3⟩ := lit_props ps fs hps st
        have hk : kvs.map Prod.fst = fs.map Prod.fst := by rw [← h3.keys, asCells_keys]
        refine ⟨h' ++ [⟨.plain, some objectProto, asCells kvs⟩], .ref h'.length, ?_, ?_, ?_⟩
        · rw [expr, bind_ok h1]
          unfold newObject
          rw [literal_props kvs .plain _ [] (by simpa [hk] using hn.1) (by rw [hk]; exact hn.2)]
          rfl
        · exact h2.trans (List.prefix_append _ _)
        · refine .obj (getElem?_length h' _) (Nat.le_refl _) (by simp) ?_
          exact h3.agree (Agree.prefix (List.prefix_append _ _) _)
      · cases hd
  | .arr es =>
    simp only [denote] at hd
    cases hes : denoteExprs es with
    | none => rw [hes] at hd; cases hd
    | some l =>
      rw [hes] at hd
      simp only [Option.some.injEq] at hd
      subst hd
      obtain ⟨h', vs, h1, h2, h3⟩ := lit_exprs es l hes st
      refine ⟨h' ++ [⟨.array, some arrayProto, elements 0 vs⟩], .ref h'.length, ?_, ?_, ?_⟩
      · rw [expr, bind_ok h1]
        rfl
      · exact h2.trans (List.prefix_append _ _)
      · refine .arr (getElem?_length h' _) (Nat.le_refl _) (by simp) ?_
        exact (h3 0).agree (Agree.prefix (List.prefix_append _ _) _)
  | .ident _ | .member _ _ | .index _ _ | .call _ _ | .newFn _ | .assign _ _ | .incr _ | .and _ _ | .or _ _
  | .not _ | .ne _ _ | .cond _ _ _ | .seq _ | .paren _ | .fn _ | .extern _ => simp [denote] at hd

theorem lit_props (ps : Props) (fs : List (String × Data)) (hd : denoteProps ps = some fs) (st : State) :
    ∃ h' kvs, props w call env ps st = .ok ({ st with heap := h' }, kvs) ∧ st.heap <+: h' ∧
      ReadsAll h' st.heap.length h'.length (asCells kvs) fs := by
  match ps with
  | .nil =>
    simp only [denoteProps, Option.some.injEq] at hd
    subst hd
    exact ⟨st.heap, [], by rw [props]; rfl, List.prefix_refl _, .nil (Nat.le_refl _)⟩
  | .cons k e ps =>
    simp only [denoteProps] at hd
    split at hd
    · rename_i d fs' he hps
      injection hd with hd
      subst hd
      obtain ⟨h1, v, e1, p1, r1⟩ := lit_expr e d he st
      obtain ⟨h2, kvs, e2, p2, r2⟩ := lit_props ps fs' hps { st with heap := h1 }
      refine ⟨h2, (k, v) :: kvs, ?_, p1.trans p2, ?_⟩
      · rw [props, bind_ok e1, bind_ok e2]
        rfl
      · exact .cons (r1.agree (Agree.prefix p2 _)) r2
    · cases hd

theorem lit_exprs (es : Exprs) (l : List Data) (hd : denoteExprs es = some l) (st : State) :
    ∃ h' vs, exprs w call env es st = .ok ({ st with heap := h' }, vs) ∧ st.heap <+: h' ∧
      ∀ i, ReadsAll h' st.heap.length h'.length (elements i vs) (indexed i l) := by
  match es with
  | .nil =>
    simp only [denoteExprs, Option.some.injEq] at hd
    subst hd
    exact ⟨st.heap, [], by rw [exprs]; rfl, List.prefix_refl _, fun _ => .nil (Nat.le_refl _)⟩
  | .cons e es =>
    simp only [denoteExprs] at hd
    split at hd
    · rename_i d l' he hes
      injection hd with hd
      subst hd
      obtain ⟨h1, v, e1, p1, r1⟩ := lit_expr e d he st
      obtain ⟨h2, vs, e2, p2, r2⟩ := lit_exprs es l' hes { st with heap := h1 }
      refine ⟨h2, v :: vs, ?_, p1.trans p2, ?_⟩
      · rw [exprs, bind_ok e1, bind_ok e2]
        rfl
      · intro i
        exact .cons (r1.agree (Agree.prefix p2 _)) (r2 (i + 1))
    · cases hd
end

end

end Verif.Js
