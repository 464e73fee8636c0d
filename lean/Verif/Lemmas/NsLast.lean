import Verif.Model.Namespace
import Verif.Lemmas.LockstepStep
import Verif.Lemmas.NsVisit
/-
A namespace after which nothing is registered: its function has the data of the file.
-/
namespace Verif
open Node

namespace SourceCoverage

theorem freezeLoop_armed : ∀ (rest : List (Nat × Branch)) (b : BranchHitMap) (bT : Option BranchHitMap),
    ∀ e ∈ (freezeLoop rest b bT).1, e.2.locations.length ≠ 0
  | [], _, _ => nofun
  | (k, br) :: rest, b, bT => by
    intro e he
    by_cases hl : br.locations.length = 0
    · simp only [freezeLoop, hl, if_true] at he
      exact freezeLoop_armed rest _ _ e he
    · simp only [freezeLoop, hl, if_false] at he
      rcases List.mem_cons.1 he with rfl | he
      · exact hl
      · exact freezeLoop_armed rest _ _ e he

theorem freezeLoop_idle : ∀ {rest : List (Nat × Branch)}, (∀ e ∈ rest, e.2.locations.length ≠ 0) → ∀ (b : BranchHitMap)
    (bT : Option BranchHitMap), freezeLoop rest b bT = (rest, b, bT)
  | [], _, _, _ => rfl
  | (k, br) :: rest, h, b, bT => by
    have hl : br.locations.length ≠ 0 := h (k, br) (by simp)
    simp only [freezeLoop, hl, if_false]
    rw [freezeLoop_idle (fun e he => h e (List.mem_cons_of_mem _ he))]

/-- Data that was frozen does not change when it is frozen again. -/
theorem freeze_freeze (c : SourceCoverage) : c.freeze.freeze = c.freeze := by
  have h := freezeLoop_idle (freezeLoop_armed c.inner.branchMap c.inner.b c.inner.bT)
    (freezeLoop c.inner.branchMap c.inner.b c.inner.bT).2.1 (freezeLoop c.inner.branchMap c.inner.b c.inner.bT).2.2
  unfold freeze
  simp only [h]

end SourceCoverage

namespace Visitor
variable {cx : Ctx} {go : Mode → Node → M Node}

theorem nsItems_append : ∀ {a b : List Node} {st s : St} {out : List Node}, nsItems cx go (a ++ b) st = .ok (out, s) →
    ∃ o₁ o₂ st₁, nsItems cx go a st = .ok (o₁, st₁) ∧ nsItems cx go b st₁ = .ok (o₂, s) ∧ out = o₁ ++ o₂
  | [], b, st, s, out, h => ⟨[], out, st, rfl, h, rfl⟩
  | x :: a, b, st, s, out, h => by
    simp only [List.cons_append, nsItems] at h
    obtain ⟨o, s1, h1, h2⟩ := M.bind_ok h
    obtain ⟨r, s2, h3, h4⟩ := M.bind_ok h2
    cases h4
    obtain ⟨o₁, o₂, s3, h5, h6, rfl⟩ := nsItems_append h3
    refine ⟨o ++ o₁, o₂, s3, ?_, h6, (List.append_assoc ..).symm⟩
    simp only [nsItems, Bind.bind, M.bind, h1, h5]
    rfl

/-- The body of a namespace ends with the data frozen, which is the data of its function. -/
theorem nsBody_last {sp : Span} {items : List Node} {st s : St} {n : Node} (h : nsBody cx go sp items st = .ok (n, s)) :
    s.cov.freeze = s.cov ∧ ∃ body, n = mk nsKind sp body ∧
      mk .covDecl Span.dummy [mk (.other .misc (Serde.save s.cov.inner)) Span.dummy []] ∈ body := by
  unfold nsBody at h
  obtain ⟨r, s1, h1, h⟩ := M.bind_ok h
  obtain ⟨o, s2, h2, h⟩ := M.bind_ok h
  obtain ⟨⟨d, c⟩, s3, h3, h⟩ := M.bind_ok h
  obtain ⟨u, s4, h4, h⟩ := M.bind_ok h
  cases h
  have e : s.cov = s2.cov.freeze := by
    cases h3
    unfold keepIf at h4
    split at h4 <;> cases h4 <;> rfl
  cases h3
  refine ⟨by rw [e, SourceCoverage.freeze_freeze], _, rfl, ?_⟩
  rw [e]
  cases o <;> simp [insertModuleTemplates]

/-- A namespace: a name and a body. -/
theorem nsVisit_decl {fuel : Nat} {g : Cat} {x : String} {sp nsp isp : Span} {a : String} {items : List Node} {st s : St} {n : Node}
    (hk : Kind.other g x ≠ nsKind)
    (h : nsVisit cx fuel .coverage (mk (.other g x) sp [mk (.ident a) isp [], mk nsKind nsp items]) st = .ok (n, s)) :
    s.cov.freeze = s.cov ∧ ∃ body, n = mk (.other g x) sp [mk (.ident a) isp [], mk nsKind nsp body] ∧
      mk .covDecl Span.dummy [mk (.other .misc (Serde.save s.cov.inner)) Span.dummy []] ∈ body := by
  cases fuel with
  | zero => cases h
  | succ fuel =>
    have e : nsVisit cx (fuel + 1) .coverage (mk (.other g x) sp [mk (.ident a) isp [], mk nsKind nsp items]) =
        visitChildren cx (nsVisit cx fuel) .coverage (mk (.other g x) sp [mk (.ident a) isp [], mk nsKind nsp items]) := by
      show nsStep cx (nsVisit cx fuel) .coverage _ = _
      unfold nsStep
      simp only [Node.kind, hk, if_false]
      exact visitNode_default (k := .other g x) (cs := [_, _]) rfl
    rw [e] at h
    simp only [visitChildren, M.mapList] at h
    obtain ⟨cs, s1, h1, h⟩ := M.bind_ok h
    cases h
    obtain ⟨i, s2, h2, h1⟩ := M.bind_ok h1
    obtain ⟨cs', s3, h3, h1⟩ := M.bind_ok h1
    cases h1
    obtain ⟨b, s4, h4, h3⟩ := M.bind_ok h3
    cases h3
    cases fuel with
    | zero => cases h2
    | succ fuel =>
      have hi : i = mk (.ident a) isp [] := by
        have : nsVisit cx (fuel + 1) .coverage (mk (.ident a) isp []) st = .ok (mk (.ident a) isp [], st) := rfl
        rw [this] at h2
        cases h2; rfl
      subst hi
      have hb : nsVisit cx (fuel + 1) .coverage (mk nsKind nsp items) = nsBody cx (nsVisit cx fuel) nsp items := by
        show nsStep cx (nsVisit cx fuel) .coverage _ = _
        unfold nsStep
        simp only [Node.kind, Node.span, Node.children, if_true]
      rw [hb] at h4
      obtain ⟨h5, body, rfl, h6⟩ := nsBody_last h4
      exact ⟨h5, body, rfl, h6⟩

theorem nsItem_decl {fuel : Nat} {g : Cat} {x : String} {sp nsp isp : Span} {a : String} {items : List Node} {st s : St}
    {out : List Node} (hk : Kind.other g x ≠ nsKind)
    (h : nsItem cx (nsVisit cx fuel) (mk (.other g x) sp [mk (.ident a) isp [], mk nsKind nsp items]) st = .ok (out, s)) :
    s.cov.freeze = s.cov ∧ ∃ body, mk (.other g x) sp [mk (.ident a) isp [], mk nsKind nsp body] ∈ out ∧
      mk .covDecl Span.dummy [mk (.other .misc (Serde.save s.cov.inner)) Span.dummy []] ∈ body := by
  unfold nsItem at h
  rw [if_neg (by simp [isDirectiveStmt])] at h
  obtain ⟨e, s1, h1, h⟩ := M.bind_ok h
  obtain ⟨o, s2, h2, h⟩ := M.bind_ok h
  obtain ⟨u, s3, h3, h⟩ := M.bind_ok h
  cases h
  unfold withBefore at h2
  obtain ⟨n, s4, h4, h2⟩ := M.bind_ok h2
  obtain ⟨bs, s5, h5, h2⟩ := M.bind_ok h2
  cases h2
  cases h5
  obtain ⟨_, s6, h6, h4⟩ := M.bind_ok h4
  obtain ⟨h7, body, rfl, h8⟩ := nsVisit_decl hk h4
  have : s.cov = s4.cov := by cases h3; rfl
  rw [this]
  exact ⟨h7, body, by simp, h8⟩

/-- Nothing is registered in a tree without namespaces in which there is nothing to instrument. -/
theorem nsVisit_idle (fuel : Nat) (m : Mode) (n : Node) (hf : n.Flat) (hn : Passive n) : Lock.Idle (nsVisit cx fuel m n) n := by
  induction fuel generalizing m n with
  | zero => intro st b st' h; cases h
  | succ fuel ih =>
    show Lock.Idle (nsStep cx (nsVisit cx fuel) m n) n
    rw [nsStep_flat hf]
    refine Lock.Idle.step m (fun m e he hp => ih m e ?_ hp) hn
    rcases he with rfl | he
    · exact hf
    · cases n with
      | mk k sp cs => exact (flat_mk.1 hf).2 e he

theorem nsItem_idle {fuel : Nat} {item : Node} {st s : St} {out : List Node} (hi : isDirectiveStmt item = true ∨ item.Flat ∧ Passive item)
    (h : nsItem cx (nsVisit cx fuel) item st = .ok (out, s)) : s.cov = st.cov := by
  unfold nsItem at h
  by_cases hd : isDirectiveStmt item = true
  · rw [if_pos hd] at h
    cases h
    rfl
  · rw [if_neg hd] at h
    generalize (if item.kind.isModuleDecl = true then Tag.moduleDecl else Tag.stmt) = t at h
    obtain ⟨hfl, hp⟩ := hi.resolve_left hd
    have hx : isExportConst item = false := by
      cases item with
      | mk k sp cs =>
        unfold isExportConst
        split
        · next he => cases he; cases hp
        · rfl
    obtain ⟨⟨old, cur⟩, s1, h1, h⟩ := M.bind_ok h
    obtain ⟨o, s2, h2, h⟩ := M.bind_ok h
    obtain ⟨u, s3, h3, h⟩ := M.bind_ok h
    cases h
    unfold withBefore at h2
    obtain ⟨n, s4, h4, h2⟩ := M.bind_ok h2
    obtain ⟨bs, s5, h5, h2⟩ := M.bind_ok h2
    cases h2
    cases h5
    obtain ⟨_, s6, h6, h4⟩ := M.bind_ok h4
    have e6 : s6 = s1 := by
      unfold keepIf at h6
      rw [if_pos hx] at h6
      cases h6
      rfl
    have e4 := (nsVisit_idle fuel _ _ hfl hp _ _ _ h4).2
    have e1 : s1.cov = st.cov := by
      unfold enter at h1
      obtain ⟨_, s7, h7, h8⟩ := M.bind_ok h1
      cases h7
      unfold enterSpan at h8
      split at h8 <;> cases h8 <;> rfl
    cases h3
    show s4.cov = st.cov
    rw [e4, e6, e1]

theorem nsItems_idle {fuel : Nat} : ∀ {items : List Node} {st s : St} {out : List Node},
    (∀ i ∈ items, isDirectiveStmt i = true ∨ i.Flat ∧ Passive i) → nsItems cx (nsVisit cx fuel) items st = .ok (out, s) → s.cov = st.cov
  | [], st, s, out, _, h => by cases h; rfl
  | i :: items, st, s, out, hi, h => by
    simp only [nsItems] at h
    obtain ⟨o, s1, h1, h⟩ := M.bind_ok h
    obtain ⟨r, s2, h2, h⟩ := M.bind_ok h
    cases h
    rw [nsItems_idle (fun j hj => hi j (by simp [hj])) h2, nsItem_idle (hi i (by simp)) h1]

theorem nsScriptItems_append {fuel : Nat} : ∀ {a b : List Node} {st s : St} {out : List Node}, nsScriptItems cx fuel (a ++ b) st = .ok (out, s) →
    ∃ o₁ o₂ st₁, nsScriptItems cx fuel a st = .ok (o₁, st₁) ∧ nsScriptItems cx fuel b st₁ = .ok (o₂, s) ∧ out = o₁ ++ o₂
  | [], b, st, s, out, h => ⟨[], out, st, rfl, h, rfl⟩
  | x :: a, b, st, s, out, h => by
    simp only [List.cons_append, nsScriptItems] at h
    obtain ⟨o, s1, h1, h2⟩ := M.bind_ok h
    obtain ⟨r, s2, h3, h4⟩ := M.bind_ok h2
    cases h4
    obtain ⟨o₁, o₂, s3, h5, h6, rfl⟩ := nsScriptItems_append h3
    refine ⟨o ++ o₁, o₂, s3, ?_, h6, (List.append_assoc ..).symm⟩
    simp only [nsScriptItems, Bind.bind, M.bind, h1, h5]
    rfl

theorem nsScriptItems_idle {fuel : Nat} : ∀ {items : List Node} {st s : St} {out : List Node},
    (∀ i ∈ items, i.Flat ∧ Passive i) → nsScriptItems cx fuel items st = .ok (out, s) → s.cov = st.cov
  | [], st, s, out, _, h => by cases h; rfl
  | i :: items, st, s, out, hi, h => by
    simp only [nsScriptItems] at h
    obtain ⟨o, s1, h1, h⟩ := M.bind_ok h
    obtain ⟨r, s2, h2, h⟩ := M.bind_ok h
    cases h
    rw [nsScriptItems_idle (fun j hj => hi j (by simp [hj])) h2]
    unfold withBefore at h1
    obtain ⟨n, s4, h4, h1⟩ := M.bind_ok h1
    obtain ⟨bs, s5, h5, h1⟩ := M.bind_ok h1
    cases h1
    cases h5
    obtain ⟨hf, hp⟩ := hi i (by simp)
    rw [← (nsVisit_idle fuel _ _ hf hp _ _ _ h4).2]

theorem nsInstrument_last {fuel : Nat} {path : String} {sm : Option SourceMap} {g : Cat} {x : String} {msp sp nsp isp : Span} {a : String}
    {pre items post : List Node} {p' : Node} {cov : SourceCoverage} (hk : Kind.other g x ≠ nsKind)
    (hf : Hint.shouldIgnoreFile cx.cc cx.comments msp = false) (hpost : ∀ i ∈ post, isDirectiveStmt i = true ∨ i.Flat ∧ Passive i)
    (h : nsInstrument cx fuel path sm (mk .module msp (pre ++ mk (.other g x) sp [mk (.ident a) isp [], mk nsKind nsp items] :: post)) = .ok (p', cov)) :
    ∃ out body, p' = mk .module msp out ∧ mk (.other g x) sp [mk (.ident a) isp [], mk nsKind nsp body] ∈ out ∧
      mk .covDecl Span.dummy [mk (.other .misc (Serde.save cov.inner)) Span.dummy []] ∈ body := by
  unfold nsInstrument at h
  split at h
  · cases h
  next n st h1 =>
  cases h
  unfold nsProgram at h1
  obtain ⟨_, s1, h2, h1⟩ := M.bind_ok h1
  simp only [Node.span, hf] at h1
  obtain ⟨q, s2, h3, h1⟩ := M.bind_ok h1
  obtain ⟨_, s3, h4, h1⟩ := M.bind_ok h1
  cases h1
  cases h4
  unfold nsProgramBody at h3
  obtain ⟨its, s4, h5, h3⟩ := M.bind_ok h3
  cases h3
  unfold nsModule at h5
  obtain ⟨r, s5, h6, h5⟩ := M.bind_ok h5
  obtain ⟨o, s6, h7, h5⟩ := M.bind_ok h5
  obtain ⟨⟨d, c⟩, s7, h8, h5⟩ := M.bind_ok h5
  obtain ⟨u, s8, h9, h5⟩ := M.bind_ok h5
  cases h5
  obtain ⟨o₁, o₂, st₁, _, h10, rfl⟩ := nsItems_append h7
  simp only [nsItems] at h10
  obtain ⟨o3, s9, h11, h10⟩ := M.bind_ok h10
  obtain ⟨o4, s10, h15, h10⟩ := M.bind_ok h10
  cases h10
  obtain ⟨h12, body, h13, h14⟩ := nsItem_decl hk h11
  have e6 := nsItems_idle hpost h15
  have e : s2.cov = s9.cov := by
    cases h8
    rw [← h12, ← e6]
    unfold keepIf at h9
    split at h9 <;> cases h9 <;> rfl
  refine ⟨_, body, rfl, ?_, ?_⟩
  · have hm : ∀ {l : List Node} {n : Node}, n ∈ l → n ∈ insertModuleTemplates d c l := fun {l n} hn => by
      cases l with
      | nil => cases hn
      | cons y l => rcases List.mem_cons.1 hn with rfl | hn <;> simp [insertModuleTemplates, *]
    exact hm (by simp [h13])
  · show mk .covDecl Span.dummy [mk (.other .misc (Serde.save s2.cov.inner)) Span.dummy []] ∈ body
    rw [e]; exact h14

/-- The same in a script. -/
theorem nsInstrument_script {fuel : Nat} {path : String} {sm : Option SourceMap} {g : Cat} {x : String} {msp sp nsp isp : Span} {a : String}
    {pre items post : List Node} {p' : Node} {cov : SourceCoverage} (hk : Kind.other g x ≠ nsKind)
    (hf : Hint.shouldIgnoreFile cx.cc cx.comments msp = false) (hpost : ∀ i ∈ post, i.Flat ∧ Passive i)
    (h : nsInstrument cx fuel path sm (mk .script msp (pre ++ mk (.other g x) sp [mk (.ident a) isp [], mk nsKind nsp items] :: post)) = .ok (p', cov)) :
    ∃ out body, p' = mk .script msp out ∧ mk (.other g x) sp [mk (.ident a) isp [], mk nsKind nsp body] ∈ out ∧
      mk .covDecl Span.dummy [mk (.other .misc (Serde.save cov.inner)) Span.dummy []] ∈ body := by
  unfold nsInstrument at h
  split at h
  · cases h
  next n st h1 =>
  cases h
  unfold nsProgram at h1
  obtain ⟨_, s1, h2, h1⟩ := M.bind_ok h1
  simp only [Node.span, hf] at h1
  obtain ⟨q, s2, h3, h1⟩ := M.bind_ok h1
  obtain ⟨_, s3, h4, h1⟩ := M.bind_ok h1
  cases h1
  cases h4
  unfold nsProgramBody at h3
  obtain ⟨its, s4, h5, h3⟩ := M.bind_ok h3
  cases h3
  unfold nsScript at h5
  obtain ⟨o, s6, h7, h5⟩ := M.bind_ok h5
  obtain ⟨⟨d, c⟩, s7, h8, h5⟩ := M.bind_ok h5
  cases h5
  obtain ⟨o₁, o₂, st₁, _, h10, rfl⟩ := nsScriptItems_append h7
  simp only [nsScriptItems] at h10
  obtain ⟨o3, s9, h11, h10⟩ := M.bind_ok h10
  obtain ⟨o4, s10, h15, h10⟩ := M.bind_ok h10
  cases h10
  unfold withBefore at h11
  obtain ⟨n, s11, h16, h11⟩ := M.bind_ok h11
  obtain ⟨bs, s12, h17, h11⟩ := M.bind_ok h11
  cases h11
  cases h17
  obtain ⟨h12, body, rfl, h14⟩ := nsVisit_decl hk h16
  have e6 := nsScriptItems_idle hpost h15
  have e : s2.cov = s11.cov := by
    cases h8
    show s6.cov.freeze = s11.cov
    rw [e6]
    exact h12
  refine ⟨_, body, rfl, by simp, ?_⟩
  show mk .covDecl Span.dummy [mk (.other .misc (Serde.save s2.cov.inner)) Span.dummy []] ∈ body
  rw [e]; exact h14

end Visitor
end Verif
