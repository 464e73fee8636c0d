import Verif.Lemmas.Truth
/-
A truthiness wrapper whose branch has no truthiness counts, executed step by step.
-/
namespace Verif.Runtime
open Js Template

section
variable {w : World} {gcv : String} {H : List Obj} {F : List (IndexMap String Value)} {L : List Nat}
  {insts : List Instance} {b : Books} {boxes : List Box} {env : List Nat}

theorem ReadsAll.get_none {h : List Obj} {lo hi : Nat} {ps : List (String × Cell)} {fs : List (String × Data)}
    {k : String} (hr : ReadsAll h lo hi ps fs) (hg : IndexMap.get fs k = none) : IndexMap.get ps k = none := by
  induction fs generalizing lo ps with
  | nil => cases hr; rfl
  | cons e fs ih =>
    cases hr with
    | @cons _ m _ k' v d' ps' _ h1 h2 =>
      simp only [IndexMap.get] at hg ⊢
      split at hg
      · cases hg
      · rename_i hk
        rw [if_neg hk]
        exact ih h2 hg

theorem tableTree_get_none {V : Type} (f : V → Data) (t : IndexMap Nat V) (i : Nat) (h : t.get i = none) :
    IndexMap.get (t.map fun e => (toString e.1, f e.2)) (toString i) = none := by
  induction t with
  | nil => rfl
  | cons e t ih =>
    obtain ⟨j, v⟩ := e
    simp only [IndexMap.get] at h
    split at h
    · cases h
    · rename_i hj
      simp only [List.map_cons, IndexMap.get]
      rw [if_neg fun e => hj (toString_inj e)]
      exact ih h

/-- `cov().bT[branch][arm]++` where the data have truthiness counts but none for the branch. -/
theorem missing_fails (d : Nat) {x : Box} {inst : Instance} {e : Input × FileCoverage}
    {t : IndexMap Nat (List Nat)} {branch arm : Nat} {p0 : IndexMap String Cell} (hh : Held H x e)
    (hw : Wired H F x.root inst) (hs : scopeOf F env inst.2 = some inst.1) (ht : e.2.bT = some t)
    (hb : t.get branch = none) (h0 : H[objectProto]? = some ⟨.plain, none, p0⟩)
    (h0' : p0.get (toString branch) = none) :
    expr w (call w (d + 1)) env (counter inst.2 (.bT branch arm)) ⟨H, F, L⟩ = .error .typeError := by
  obtain ⟨ps, m, h1, h2, h3, h4, h5⟩ := hh
  obtain ⟨lo', hi', v, a1, a2, a3, a4⟩ := h4.get ((dataFields_get e.1.magic e.1.hash e.2).2.2.2.2 t ht)
  rw [known_get (by decide)] at a3
  unfold tableTree at a4
  cases a4 with
  | @obj _ _ m r rs _ hr hm hlt hrs =>
    have hn : IndexMap.get rs (toString branch) = none := ReadsAll.get_none hrs (tableTree_get_none _ _ _ hb)
    have e1 : expr w (call w (d + 1)) env (.index (.member (.call (.ident inst.2) .nil) "bT") (.num branch)) ⟨H, F, L⟩
        = .ok (⟨H, F ++ [[]], L⟩, .undef) := by
      rw [expr, bind_ok (call_field d hw hs h1 (by decide) a3), bind_ok (by rw [expr]; rfl)]
      show get w (.ref r) (toString branch) ⟨H, F ++ [[]], L⟩ = _
      rw [get_inherited (st := ⟨H, F ++ [[]], L⟩) hr (toString_ne_proto branch) h0 hn, h0']
      rfl
    show expr w (call w (d + 1)) env (.incr (.index (.index (.member (.call (.ident inst.2) .nil) "bT") (.num branch))
      (.num arm))) ⟨H, F, L⟩ = _
    rw [expr, bind_ok e1, bind_ok (by rw [expr]; rfl)]
    rfl

/-- What the wrapper does once the operand has been evaluated, when the branch has no truthiness counts. -/
theorem Inv.tested_missing (hi : Inv gcv H F insts b boxes) {k m branch arm : Nat} {inst : Instance}
    {e : Input × FileCoverage} {x : Box} {v : Value} {t : IndexMap Nat (List Nat)} (hinst : insts[k]? = some inst)
    (hm : b.writes[k]? = some m) (he : b.sets[m]? = some e) (hx : boxes[m]? = some x) (ht : e.2.bT = some t)
    (hb : t.get branch = none) (h0 : ∀ o, H[objectProto]? = some o → o.props.get (toString branch) = none)
    (hs : scopeOf F env inst.2 = some inst.1) (ha : scopeOf F env "Array" = none)
    (ho : scopeOf F env "Object" = none) (hp : Passive H v) :
    ∃ ps, H[x.root]? = some ⟨.plain, some objectProto, ps⟩ ∧
      match counted H v, exprs w (call w 2) env (.ofList
        [.paren (.cond (validate inst.2 (tempName inst.2)) (counter inst.2 (.bT branch arm)) .null),
         temp inst.2 (tempName inst.2)])
        ⟨H.set x.root ⟨.plain, some objectProto, ps.insert (tempName inst.2) (.data v)⟩, F, L⟩ with
      | true, .error er => er = .typeError
      | false, .ok (st, vs) => vs = [.null, v] ∧ st.log = L
      | _, _ => False := by
  obtain ⟨ht1, ht2⟩ := tempName_fresh inst.2
  have ht3 : ∃ cov, tempName inst.2 = tempName cov := ⟨_, rfl⟩
  generalize tempName inst.2 = tmp at ht1 ht2 ht3
  have hh := hi.held m x e hx he
  obtain ⟨ps, h1, hps, h2⟩ := hh.put ht1 ht3 (by rw [ht]; rfl) v
  have hl := hh.lo_le
  have hin := hi.inside x (List.mem_of_getElem? hx)
  obtain ⟨c1, c2⟩ := counted_set (tmp := tmp) (v := v) (u := v) h1 hps
  have hset : b.sets.set m e = b.sets := by
    apply List.ext_getElem?
    intro n'
    rw [List.getElem?_set]
    split
    · rename_i hmn
      subst hmn
      rw [if_pos (lt_of_getElem? he), he]
    · rfl
  have hi1 : Inv gcv (H.set x.root ⟨.plain, some objectProto, ps.insert tmp (.data v)⟩) F insts b boxes := by
    have := hi.inbox hx he h1 (fun env hc => by cases hc) hl.1 hl.2.1 h2
    rw [hset] at this
    exact this
  have hlen1 : (H.set x.root ⟨.plain, some objectProto, ps.insert tmp (.data v)⟩).length = H.length :=
    List.length_set ..
  have hroot1 : (H.set x.root ⟨.plain, some objectProto, ps.insert tmp (.data v)⟩)[x.root]?
      = some ⟨.plain, some objectProto, ps.insert tmp (.data v)⟩ := List.getElem?_set_self hl.2.2
  have hproto : (H.set x.root ⟨.plain, some objectProto, ps.insert tmp (.data v)⟩)[objectProto]?
      = H[objectProto]? := List.getElem?_set_ne (by
    have : objectProto < 4 := by decide
    omega)
  obtain ⟨p0, r1, -⟩ := hi.root
  refine ⟨ps, h1, ?_⟩
  generalize H.set x.root ⟨.plain, some objectProto, ps.insert tmp (.data v)⟩ = H1 at *
  obtain ⟨x', hx', hw⟩ := hi1.wired k inst m hinst hm
  rw [hx] at hx'
  injection hx' with hx'
  subst hx'
  have hready : Ready H1 F env x inst e tmp v :=
    ⟨h2, hw, hs, ha, ho, ⟨_, hroot1, by rw [IndexMap.get_insert, if_pos rfl]⟩, by omega⟩
  obtain ⟨H2, F2, r, v1, v2, v3, v4, v5⟩ := validate_ok (w := w) (L := L) hready ht2 (c2 hp)
  rw [c1] at v2
  have hp2 : H2[objectProto]? = some ⟨.plain, none, p0⟩ := prefix_get v3 (hproto.trans r1)
  cases hc : counted H v with
  | false =>
    rw [hc] at v2
    have e1 : expr w (call w 2) env (.paren (.cond (validate inst.2 tmp) (counter inst.2 (.bT branch arm)) .null))
        ⟨H1, F, L⟩ = .ok (⟨H2, F2, L⟩, .null) := by
      rw [expr, expr, bind_ok v1, if_neg (by simp [v2]), expr]
      rfl
    simp only [Exprs.ofList]
    rw [exprs, bind_ok e1, exprs, bind_ok (bind_ok (v5.keeps_ok ht2))]
    exact ⟨rfl, rfl⟩
  | true =>
    rw [hc] at v2
    have e1 : expr w (call w 2) env (.paren (.cond (validate inst.2 tmp) (counter inst.2 (.bT branch arm)) .null))
        ⟨H1, F, L⟩ = .error .typeError := by
      rw [expr, expr, bind_ok v1, if_pos v2]
      exact missing_fails 1 v5.held v5.wired v5.sees ht hb hp2 (h0 _ r1)
    have e2 : exprs w (call w 2) env (.ofList
        [.paren (.cond (validate inst.2 tmp) (counter inst.2 (.bT branch arm)) .null), temp inst.2 tmp]) ⟨H1, F, L⟩
        = .error .typeError := by
      simp only [Exprs.ofList]
      rw [exprs]
      show M.bind _ _ _ = _
      unfold M.bind
      rw [e1]
    rw [e2]

end
end Verif.Runtime
