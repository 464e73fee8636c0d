import Verif.Lemmas.Flat
/-
A program without namespaces is instrumented alike by the visitors of `Model/Namespace.lean` and `Model/Program.lean`.
-/
namespace Verif
namespace Visitor
open Node

theorem nsStep_flat {cx : Ctx} {go : Mode → Node → M Node} {m : Mode} {n : Node} (hn : n.Flat) : nsStep cx go m n = step cx go m n := by
  cases n with
  | mk k sp cs =>
    have hk := (flat_mk.1 hn).1
    cases m with
    | coverage =>
      unfold nsStep
      rw [if_neg]
      intro h
      rw [show k = nsKind from h] at hk
      cases hk
    | _ => rfl

theorem nsVisit_same (cx : Ctx) : ∀ (fuel : Nat) (m : Mode) (n : Node), n.Flat → Same (nsVisit cx fuel m n) (visit cx fuel m n) Flat
  | 0, _, _, _ => Same.panic _
  | fuel + 1, m, n, hn => by
    show Same (nsStep cx (nsVisit cx fuel) m n) (step cx (visit cx fuel) m n) Flat
    rw [nsStep_flat hn]
    exact Same.step (nsVisit_same cx fuel) m hn

namespace Same

theorem drain : Same drain Visitor.drain Flats := by
  intro st hst
  refine ⟨rfl, fun a s h => ?_⟩
  cases h
  exact ⟨hst, nofun⟩

theorem withBefore {x y : M Node} (h : Same x y Flat) : Same (withBefore x) (Visitor.withBefore y) Flats :=
  bind h fun _ h1 => bind drain fun _ h2 => pure (h2.append (Flats.one h1))

theorem ensureRoot : Same ensureRoot Visitor.ensureRoot fun _ => True :=
  quiet fun st a s h => by
    unfold Visitor.ensureRoot at h
    split at h <;> (cases h; exact ⟨rfl, trivial⟩)

theorem coverageTemplates : Same coverageTemplates Visitor.coverageTemplates fun _ => True :=
  quiet fun _ _ _ h => by cases h; exact ⟨rfl, trivial⟩

end Same

theorem nsItem_same (cx : Ctx) (fuel : Nat) {item : Node} (h : item.Flat) :
    Same (nsItem cx (nsVisit cx fuel) item) (visitItem cx fuel item) Flats :=
  Same.ite (fun _ => Same.pure (Flats.one h)) fun _ => Same.frame fun _ =>
    Same.withBefore (Same.bind (Same.keepIf trivial (Same.mark _)) fun _ _ => nsVisit_same cx fuel _ _ h)

theorem nsItems_same (cx : Ctx) (fuel : Nat) : ∀ {items : List Node}, Flats items →
    Same (nsItems cx (nsVisit cx fuel) items) (visitItems cx fuel items) fun _ => True
  | [], _ => Same.pure trivial
  | a :: _, h => Same.bind (nsItem_same cx fuel (h a (by simp))) fun _ _ =>
    Same.bind (nsItems_same cx fuel fun n hn => h n (by simp [hn])) fun _ _ => Same.pure trivial

theorem nsModule_same (cx : Ctx) (fuel : Nat) {items : List Node} (h : Flats items) :
    Same (nsModule cx fuel items) (moduleItems cx fuel items) fun _ => True :=
  Same.bind Same.ensureRoot fun _ _ => Same.bind (nsItems_same cx fuel h) fun _ _ => Same.bind Same.coverageTemplates fun _ _ =>
    Same.bind (Same.keepIf trivial Same.pop) fun _ _ => Same.pure trivial

theorem nsScriptItems_same (cx : Ctx) (fuel : Nat) : ∀ {items : List Node}, Flats items →
    Same (nsScriptItems cx fuel items) (visitScriptItems cx fuel items) fun _ => True
  | [], _ => Same.pure trivial
  | a :: _, h => Same.bind (Same.withBefore (nsVisit_same cx fuel _ _ (h a (by simp)))) fun _ _ =>
    Same.bind (nsScriptItems_same cx fuel fun n hn => h n (by simp [hn])) fun _ _ => Same.pure trivial

theorem nsScript_same (cx : Ctx) (fuel : Nat) {items : List Node} (h : Flats items) :
    Same (nsScript cx fuel items) (scriptBody cx fuel items) fun _ => True :=
  Same.bind (nsScriptItems_same cx fuel h) fun _ _ => Same.bind Same.coverageTemplates fun _ _ => Same.pure trivial

theorem nsProgramBody_same (cx : Ctx) (fuel : Nat) {p : Node} (h : p.Flat) :
    Same (nsProgramBody cx fuel p) (programBody cx fuel p) fun _ => True := by
  unfold nsProgramBody
  split
  · exact Same.bind (nsModule_same cx fuel (flat_mk.1 h).2) fun _ _ => Same.pure trivial
  · exact Same.bind (nsScript_same cx fuel (flat_mk.1 h).2) fun _ _ => Same.pure trivial
  · rename_i h1 h2
    have : programBody cx fuel p = pure p := by
      unfold programBody
      split
      · exact (h1 _ _ rfl).elim
      · exact (h2 _ _ rfl).elim
      · rfl
    rw [this]
    exact Same.pure trivial

theorem nsProgram_same (cx : Ctx) (fuel : Nat) {p : Node} (h : p.Flat) :
    Same (nsProgram cx fuel p) (visitProgram cx fuel p) fun _ => True :=
  Same.bind (Same.push _) fun _ _ => Same.ite (fun _ => Same.pure trivial) fun _ =>
    Same.bind (nsProgramBody_same cx fuel h) fun _ _ => Same.bind Same.pop fun _ _ => Same.pure trivial

theorem nsInstrument_same (cx : Ctx) (fuel : Nat) (path : String) (sm : Option SourceMap) {p : Node} (h : p.Flat) :
    nsInstrument cx fuel path sm p = instrument cx fuel path sm p := by
  unfold nsInstrument instrument
  rw [(nsProgram_same cx fuel h (initial cx path sm) nofun).1]
  cases visitProgram cx fuel p (initial cx path sm) <;> rfl

end Visitor
end Verif
