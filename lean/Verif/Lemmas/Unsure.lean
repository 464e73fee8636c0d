import Verif.Spec.Unsure
import Verif.Props.Outline
/-
Programs with the same outline have reports that only differ in unsure initialisers.
-/
namespace Verif
open Visitor
namespace Node
variable {cx : Ctx}

theorem mem_outlines {ls : List Look} {cs : List Node} {e : Entry} (h : e ∈ (outlines cx ls cs).flatten) : ∃ c ∈ cs, ∃ l, e ∈ outline cx l c := by
  induction cs generalizing ls with
  | nil => cases ls <;> exact absurd h (by simp [outlines])
  | cons c cs ih =>
    cases ls with
    | nil => exact absurd h (by simp [outlines])
    | cons l ls =>
      replace h : e ∈ outline cx l c ++ (outlines cx ls cs).flatten := h
      rcases List.mem_append.1 h with h | h
      · exact ⟨c, .head _, l, h⟩
      · obtain ⟨d, hd, h⟩ := ih h
        exact ⟨d, .tail _ hd, h⟩

theorem mem_inOrder {α : Type} {n : Node} {es : List (List α)} {e : α} (h : e ∈ (inOrder n es).flatten) : e ∈ es.flatten := by
  obtain ⟨k, sp, cs⟩ := n
  cases k <;> first
    | exact h
    | (match es with
      | [] | [_] | [_, _] | _ :: _ :: _ :: _ :: _ => exact h
      | [a, b, c] =>
        replace h : e ∈ [b, c, a].flatten := h
        simp only [List.flatten_cons, List.flatten_nil, List.append_nil, List.mem_append] at h ⊢
        grind)

/-- Every entry of the outline is an entry of a construct of the source. -/
theorem mem_outline {l : Look} {n : Node} {e : Entry} (h : e ∈ outline cx l n) : ∃ m ∈ n.each, e ∈ own cx m := by
  induction n using ind generalizing l with
  | h k sp cs ih =>
    have hc : ∀ {ls}, e ∈ (outlines cx ls cs).flatten → ∃ m ∈ (mk k sp cs).each, e ∈ own cx m := fun h => by
      obtain ⟨c, hc, l, h⟩ := mem_outlines h
      obtain ⟨m, hm, h⟩ := ih c hc h
      exact ⟨m, mem_each_mk.2 (.inr ⟨c, hc, hm⟩), h⟩
    unfold outline at h
    split at h
    · exact absurd h (by simp)
    · split at h
      · exact hc h
      · split at h
        · exact absurd h (by simp)
        · rcases List.mem_append.1 h with h | h
          · exact ⟨_, mem_each_mk.2 (.inl rfl), h⟩
          · exact hc (mem_inOrder h)

theorem unsure_ofInit {d : Bool} {e : Node} {r : Range} (h : Entry.statement r false ∈ ofInit cx d e) :
    e.any Kind.isHoisting = true ∧ e.any Kind.isBlock = false ∧ d = true ∧ r = cx.range e.span := by
  unfold ofInit at h
  split at h
  · exact absurd h (by simp)
  · split at h
    · exact absurd h (by simp)
    · rename_i hb
      rcases List.mem_append.1 h with h | h
      · split at h <;> exact absurd h (by simp)
      · split at h
        · rename_i hh
          rw [Bool.and_eq_true] at hh
          exact ⟨hh.1, Bool.eq_false_iff.2 hb, hh.2, by simpa using h⟩
        · split at h <;> exact absurd h (by simp)

theorem unsure_own {n : Node} {r : Range} (h : Entry.statement r false ∈ own cx n) :
    ∃ sp pat init, n = mk .varDeclarator sp [pat, init] ∧ init.any Kind.isHoisting = true ∧ init.any Kind.isBlock = false ∧ r = cx.range init.span := by
  rcases List.mem_append.1 h with h | h
  · unfold counted at h
    split at h
    all_goals first
      | exact absurd h (by simp)
      | (obtain ⟨h1, h2, h3, h4⟩ := unsure_ofInit h
         first
          | exact ⟨_, _, _, rfl, h1, h2, h4⟩
          | exact absurd h3 Bool.noConfusion)
  · unfold head at h
    split at h
    · exact absurd h (by simp)
    · split at h <;> exact absurd h (by simp)
    · exact absurd h (by simp)

theorem mem_of_statements {es : List Entry} {x : Range × Bool} (h : x ∈ Entry.statements es) : Entry.statement x.1 x.2 ∈ es := by
  induction es with
  | nil => exact absurd h (by simp [Entry.statements])
  | cons e es ih =>
    cases e with
    | statement r s =>
      rcases List.mem_cons.1 h with rfl | h
      · exact .head _
      · exact .tail _ (ih h)
    | _ => exact .tail _ (ih h)

/-- What is not sure in the outline of a program. -/
theorem unsure_program {p : Node} {r : Range} (h : (r, false) ∈ Entry.statements (programOutline cx p)) : p.UnsureInit cx r := by
  have he : ∃ m ∈ p.each, Entry.statement r false ∈ own cx m := by
    replace h := mem_of_statements h
    obtain ⟨k, sp, cs⟩ := p
    have part : ∀ c ∈ cs, ∀ l, Entry.statement r false ∈ outline cx l c → ∃ m ∈ (mk k sp cs).each, Entry.statement r false ∈ own cx m :=
      fun c hc l h => by
        obtain ⟨m, hm, h⟩ := mem_outline h
        exact ⟨m, mem_each_mk.2 (.inr ⟨c, hc, hm⟩), h⟩
    cases k with
    | module =>
      replace h : Entry.statement r false ∈ if Hint.shouldIgnoreFile cx.cc cx.comments sp then [] else cs.flatMap (itemOutline cx) := h
      split at h
      · exact absurd h (by simp)
      · obtain ⟨c, hc, h⟩ := List.mem_flatMap.1 h
        unfold itemOutline at h
        split at h
        · exact absurd h (by simp)
        · rcases List.mem_append.1 h with h | h
          · split at h <;> exact absurd h (by simp)
          · exact part c hc _ h
    | script =>
      replace h : Entry.statement r false ∈ if Hint.shouldIgnoreFile cx.cc cx.comments sp then [] else cs.flatMap (outline cx .outer) := h
      split at h
      · exact absurd h (by simp)
      · obtain ⟨c, hc, h⟩ := List.mem_flatMap.1 h
        exact part c hc _ h
    | _ => exact absurd h (by simp [programOutline])
  obtain ⟨m, hm, h⟩ := he
  obtain ⟨sp, pat, init, rfl, h1⟩ := unsure_own h
  exact ⟨sp, pat, init, hm, h1⟩

end Node

theorem Picks.nearly {α : Type} {P : α → Prop} {U : List (α × Bool)} {S S' : List α} (h : Picks U S) (h' : Picks U S') (hP : ∀ a, (a, false) ∈ U → P a) :
    Nearly P S S' := by
  induction U generalizing S S' with
  | nil =>
    cases h
    cases h'
    exact .nil
  | cons x U ih =>
    have ih' {S S'} (h : Picks U S) (h' : Picks U S') := ih h h' fun a ha => hP a (.tail _ ha)
    cases h with
    | take h =>
      cases h' with
      | take h' => exact .both _ (ih' h h')
      | drop h' => exact .left (hP _ (.head _)) (ih' h h')
    | drop h =>
      cases h' with
      | take h' => exact .right (hP _ (.head _)) (ih' h h')
      | drop h' => exact ih' h h'

theorem Picks.count {α : Type} [BEq α] [LawfulBEq α] {U : List (α × Bool)} {S : List α} (h : Picks U S) {a : α} (ha : (a, false) ∉ U) :
    S.count a = (U.map Prod.fst).count a := by
  induction h with
  | nil => rfl
  | take _ ih => rw [List.map_cons, List.count_cons, List.count_cons, ih fun h => ha (.tail _ h)]
  | @drop b _ _ _ ih =>
    have hb : b ≠ a := fun e => ha (by rw [e]; exact .head _)
    rw [List.map_cons, List.count_cons_of_ne hb, ih fun h => ha (.tail _ h)]

/-- The reports of programs with the same outline. -/
theorem near_statements {cx : Ctx} {fuel fuel' : Nat} {path path' : String} {sm sm' : Option SourceMap} {p p' p1 p2 : Node} {cov cov' : SourceCoverage}
    (hp : p.NoTaggedInits) (hc : p.CasesInSwitch) (hp' : p'.NoTaggedInits) (hc' : p'.CasesInSwitch)
    (ho : Node.programOutline cx p' = Node.programOutline cx p) (hr : instrument cx fuel path sm p = .ok (p1, cov))
    (hr' : instrument cx fuel' path' sm' p' = .ok (p2, cov')) : NearStatements cx p cov.inner cov'.inner := by
  obtain ⟨S, h1, h2⟩ := C72_statements_partial hp hc hr
  obtain ⟨S', h3, h4⟩ := C72_statements_partial hp' hc' hr'
  rw [ho] at h3
  exact ⟨S, S', h2, h4, h1.nearly h3 fun r h => Node.unsure_program h⟩

end Verif
