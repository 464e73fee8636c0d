import Verif.Model.Debug
import Verif.Spec.Debug
import Verif.Lemmas.Release
/-
The debug build: a merge that comes to an end gives what exact arithmetic gives, and it comes to an end if all sums fit.
-/
namespace Verif
namespace Debug
open IndexMap

/-- An addition that stops rather than give a number that is too large. -/
structure Checks {H : Type} (small : H → Prop) (comb : H → H → H) (combE : H → H → Except Failure H) : Prop where
  ok : ∀ a b c, small a → small b → (combE a b = .ok c ↔ comb a b = c ∧ small (comb a b))
  left : ∀ a b, small (comb a b) → small a
  stops : ∀ a b e, combE a b = .error e → e = .overflow

theorem checks_add : Checks (· < 2 ^ 32) (· + ·) add where
  ok a b c _ _ := by
    unfold add
    by_cases h : a + b < 2 ^ 32
    · rw [if_pos h]
      exact ⟨fun e => ⟨by cases e; rfl, h⟩, fun e => by rw [e.1]⟩
    · rw [if_neg h]
      exact ⟨nofun, fun e => (h e.2).elim⟩
  left a b h := by omega
  stops a b e h := by
    unfold add at h
    split at h <;> cases h
    rfl

theorem addInto_ok : ∀ a b c : List Nat, (∀ n ∈ a, n < 2 ^ 32) →
    (addInto a b = .ok c ↔ Verif.addInto (· + ·) a b = c ∧ ∀ n ∈ Verif.addInto (· + ·) a b, n < 2 ^ 32)
  | [], [], c, _ => by simp [addInto, Verif.addInto]
  | [], b :: bs, c, _ => by simp [addInto, Verif.addInto]
  | a :: as, [], c, h => by
    simp only [addInto, Verif.addInto, Except.ok.injEq]
    exact ⟨fun e => ⟨e, h⟩, fun e => e.1⟩
  | a :: as, b :: bs, c, h => by
    have ih := fun c => addInto_ok as bs c fun n hn => h n (List.mem_cons_of_mem _ hn)
    simp only [addInto, Verif.addInto]
    unfold add
    by_cases hs : a + b < 2 ^ 32
    · rw [if_pos hs]
      simp only
      cases hr : addInto as bs with
      | error e =>
        simp only [reduceCtorEq, false_iff]
        rintro ⟨-, h2⟩
        have := (ih _).2 ⟨rfl, fun n hn => h2 n (List.mem_cons_of_mem _ hn)⟩
        rw [hr] at this
        cases this
      | ok cs =>
        obtain ⟨h1, h2⟩ := (ih cs).1 hr
        simp only [Except.ok.injEq]
        constructor
        · rintro rfl
          refine ⟨by rw [h1], fun n hn => ?_⟩
          rcases List.mem_cons.1 hn with rfl | hn
          · exact hs
          · exact h2 n hn
        · rintro ⟨rfl, -⟩
          rw [h1]
    · rw [if_neg hs]
      simp only [reduceCtorEq, false_iff]
      rintro ⟨-, h2⟩
      exact hs (h2 _ (List.mem_cons_self ..))

theorem addInto_left : ∀ a b : List Nat, (∀ n ∈ Verif.addInto (· + ·) a b, n < 2 ^ 32) → ∀ n ∈ a, n < 2 ^ 32
  | [], _, _ => nofun
  | a :: as, [], h => h
  | a :: as, b :: bs, h => by
    intro n hn
    rcases List.mem_cons.1 hn with rfl | hn
    · have : n + b < 2 ^ 32 := h _ (List.mem_cons_self ..)
      omega
    · exact addInto_left as bs (fun n hn => h n (List.mem_cons_of_mem _ hn)) n hn

theorem addInto_stops : ∀ (a b : List Nat) (e : Failure), addInto a b = .error e → e = .overflow
  | [], [], _, h => by cases h
  | [], _ :: _, _, h => by cases h
  | _ :: _, [], _, h => by cases h
  | a :: as, b :: bs, e, h => by
    simp only [addInto] at h
    split at h
    · rename_i e' he
      cases h
      exact checks_add.stops _ _ _ he
    · split at h
      · rename_i e' he
        cases h
        exact addInto_stops as bs _ he
      · cases h

theorem checks_vec : Checks (∀ n ∈ ·, n < 2 ^ 32) (Verif.vecAdd (· + ·)) vecAdd where
  ok a b c ha _ := by
    unfold vecAdd Verif.vecAdd
    apply addInto_ok
    split
    · intro n hn
      rcases List.mem_append.1 hn with hn | hn
      · exact ha n hn
      · rw [List.eq_of_mem_replicate hn]
        omega
    · exact ha
  left a b h := by
    have := addInto_left _ _ h
    intro n hn
    refine this n ?_
    split
    · exact List.mem_append_left _ hn
    · exact hn
  stops a b e h := addInto_stops _ _ _ h

section
variable {H T : Type} {small : H → Prop} {comb : H → H → H} {combE : H → H → Except Failure H}

/-- All counts of the items are small. -/
def AllSmall (small : H → Prop) (items : IndexMap String (H × T)) : Prop := ∀ e ∈ items, small e.2.1

theorem AllSmall.cons {e : String × (H × T)} {m : IndexMap String (H × T)} :
    AllSmall small (e :: m) ↔ small e.2.1 ∧ AllSmall small m := by
  unfold AllSmall
  simp

theorem upsert_ok (hc : Checks small comb combE) (k : String) (h : H) (t : T) (hh : small h) :
    ∀ (m r : IndexMap String (H × T)), AllSmall small m →
      (upsert combE m k h t = .ok r ↔ IndexMap.upsert m k (fun p => (comb p.1 h, p.2)) (h, t) = r ∧
        AllSmall small (IndexMap.upsert m k (fun p => (comb p.1 h, p.2)) (h, t)))
  | [], r, _ => by
    simp only [upsert, IndexMap.upsert, Except.ok.injEq]
    exact ⟨fun e => ⟨e, fun x hx => by rw [List.mem_singleton.1 hx]; exact hh⟩, fun e => e.1⟩
  | (k', (h', t')) :: m, r, hm => by
    obtain ⟨hm1, hm2⟩ := AllSmall.cons.1 hm
    simp only [upsert, IndexMap.upsert]
    by_cases hk : k' = k
    · rw [if_pos hk, if_pos hk]
      rw [AllSmall.cons]
      cases hcomb : combE h' h with
      | error e =>
        simp only [reduceCtorEq, false_iff]
        rintro ⟨-, h2, -⟩
        have := (hc.ok h' h _ hm1 hh).2 ⟨rfl, h2⟩
        rw [hcomb] at this
        cases this
      | ok c =>
        obtain ⟨h1, h2⟩ := (hc.ok h' h c hm1 hh).1 hcomb
        simp only [Except.ok.injEq]
        rw [h1]
        exact ⟨fun e => ⟨e, h1 ▸ h2, hm2⟩, fun e => e.1⟩
    · rw [if_neg hk, if_neg hk, AllSmall.cons]
      have ih := fun r => upsert_ok hc k h t hh m r hm2
      cases hu : upsert combE m k h t with
      | error e =>
        simp only [reduceCtorEq, false_iff]
        rintro ⟨-, -, h2⟩
        have := (ih _).2 ⟨rfl, h2⟩
        rw [hu] at this
        cases this
      | ok m' =>
        obtain ⟨h1, h2⟩ := (ih m').1 hu
        simp only [Except.ok.injEq]
        rw [h1]
        exact ⟨fun e => ⟨e, hm1, h1 ▸ h2⟩, fun e => e.1⟩

theorem upsert_stops (hc : Checks small comb combE) (k : String) (h : H) (t : T) :
    ∀ (m : IndexMap String (H × T)) (e : Failure), upsert combE m k h t = .error e → e = .overflow
  | [], _, he => by cases he
  | (k', (h', t')) :: m, e, he => by
    simp only [upsert] at he
    split at he
    · split at he
      · rename_i e' h1
        cases he
        exact hc.stops _ _ _ h1
      · cases he
    · split at he
      · rename_i e' h1
        cases he
        exact upsert_stops hc k h t m _ h1
      · cases he

theorem upsert_left (hc : Checks small comb combE) (k : String) (h : H) (t : T) : ∀ m : IndexMap String (H × T),
    AllSmall small (IndexMap.upsert m k (fun p => (comb p.1 h, p.2)) (h, t)) → AllSmall small m
  | [], _ => nofun
  | (k', (h', t')) :: m, hm => by
    simp only [IndexMap.upsert] at hm
    by_cases hk : k' = k
    · rw [if_pos hk, AllSmall.cons] at hm
      exact AllSmall.cons.2 ⟨hc.left _ _ hm.1, hm.2⟩
    · rw [if_neg hk, AllSmall.cons] at hm
      exact AllSmall.cons.2 ⟨hm.1, upsert_left hc k h t m hm.2⟩

theorem mergeSecond_left (hc : Checks small comb combE) (key : T → Except Panic String) (map : IndexMap Nat T) :
    ∀ (hits : List (Nat × H)) (items r : IndexMap String (H × T)),
      Verif.mergeSecond key comb map hits items = .ok r → AllSmall small r → AllSmall small items
  | [], items, r, h, hr => by cases h; exact hr
  | (k, h) :: rest, items, r, hm, hr => by
    simp only [Verif.mergeSecond] at hm
    split at hm
    · cases hm
    · split at hm
      · cases hm
      · exact upsert_left hc _ _ _ _ (mergeSecond_left hc key map rest _ r hm hr)

theorem mergeSecond_ok (hc : Checks small comb combE) (key : T → Except Panic String) (map : IndexMap Nat T) :
    ∀ (hits : List (Nat × H)) (items r : IndexMap String (H × T)), (∀ e ∈ hits, small e.2) → AllSmall small items →
      (mergeSecond key combE map hits items = .ok r ↔ Verif.mergeSecond key comb map hits items = .ok r ∧ AllSmall small r)
  | [], items, r, _, hi => by
    simp only [mergeSecond, Verif.mergeSecond, Except.ok.injEq]
    exact ⟨fun e => ⟨e, e ▸ hi⟩, fun e => e.1⟩
  | (k, h) :: rest, items, r, hh, hi => by
    simp only [mergeSecond, Verif.mergeSecond]
    cases IndexMap.get map k with
    | none => simp
    | some item =>
      simp only
      cases key item with
      | error e => simp
      | ok ik =>
        simp only
        have hu := fun r => upsert_ok hc ik h item (hh (k, h) (List.mem_cons_self ..)) items r hi
        cases hue : upsert combE items ik h item with
        | error e =>
          simp only [reduceCtorEq, false_iff]
          rintro ⟨h1, h2⟩
          have := (hu _).2 ⟨rfl, mergeSecond_left hc key map rest _ r h1 h2⟩
          rw [hue] at this
          cases this
        | ok items' =>
          obtain ⟨h1, h2⟩ := (hu items').1 hue
          simp only
          rw [h1] at h2 ⊢
          exact mergeSecond_ok hc key map rest items' r (fun e he => hh e (List.mem_cons_of_mem _ he)) h2

theorem mergeSecond_stops (hc : Checks small comb combE) (key : T → Except Panic String) (map : IndexMap Nat T) :
    ∀ (hits : List (Nat × H)) (items : IndexMap String (H × T)) (p : Panic), (∀ e ∈ hits, small e.2) → AllSmall small items →
      mergeSecond key combE map hits items = .error (.panic p) → Verif.mergeSecond key comb map hits items = .error p
  | [], items, p, _, _, h => by cases h
  | (k, h) :: rest, items, p, hh, hi, hm => by
    simp only [mergeSecond] at hm
    simp only [Verif.mergeSecond]
    cases hg : IndexMap.get map k with
    | none => rw [hg] at hm; cases hm; rfl
    | some item =>
      rw [hg] at hm
      simp only at hm ⊢
      cases hk : key item with
      | error e => rw [hk] at hm; cases hm; rfl
      | ok ik =>
        rw [hk] at hm
        simp only at hm ⊢
        cases hue : upsert combE items ik h item with
        | error e =>
          rw [hue] at hm
          cases hm
          have := upsert_stops hc _ _ _ _ _ hue
          cases this
        | ok items' =>
          rw [hue] at hm
          obtain ⟨h1, h2⟩ := (upsert_ok hc ik h item (hh (k, h) (List.mem_cons_self ..)) items items' hi).1 hue
          rw [h1] at h2 ⊢
          exact mergeSecond_stops hc key map rest items' p (fun e he => hh e (List.mem_cons_of_mem _ he)) h2 hm

theorem allSmall_insert {k : String} {h : H} {t : T} (hh : small h) : ∀ {m : IndexMap String (H × T)}, AllSmall small m →
    AllSmall small (m.insert k (h, t))
  | [], _ => fun x hx => by rw [List.mem_singleton.1 hx]; exact hh
  | (k', (h', t')) :: m, hm => by
    obtain ⟨h1, h2⟩ := AllSmall.cons.1 hm
    simp only [IndexMap.insert]
    split
    · exact AllSmall.cons.2 ⟨hh, h2⟩
    · exact AllSmall.cons.2 ⟨h1, allSmall_insert hh h2⟩

theorem mergeFirst_small (key : T → Except Panic String) (map : IndexMap Nat T) :
    ∀ (hits : List (Nat × H)) (items r : IndexMap String (H × T)), (∀ e ∈ hits, small e.2) → AllSmall small items →
      mergeFirst key map hits items = .ok r → AllSmall small r
  | [], items, r, _, hi, h => by cases h; exact hi
  | (k, h) :: rest, items, r, hh, hi, hm => by
    simp only [mergeFirst] at hm
    split at hm
    · cases hm
    · split at hm
      · cases hm
      · exact mergeFirst_small key map rest _ r (fun e he => hh e (List.mem_cons_of_mem _ he))
          (allSmall_insert (hh _ (List.mem_cons_self ..)) hi) hm

theorem reindexFrom_small {P : H → Prop} : ∀ (i : Nat) (l : List H), (∀ e ∈ reindexFrom i l, P e.2) ↔ ∀ x ∈ l, P x
  | _, [] => by simp [reindexFrom]
  | i, a :: l => by
    have ih := reindexFrom_small (P := P) (i + 1) l
    simp only [reindexFrom, List.forall_mem_cons]
    rw [ih]

theorem mergeProps_ok (hc : Checks small comb combE) (key : T → Except Panic String) (h₁ : IndexMap Nat H) (m₁ : IndexMap Nat T)
    (h₂ : IndexMap Nat H) (m₂ : IndexMap Nat T) (p : IndexMap Nat H × IndexMap Nat T) (hs₁ : ∀ e ∈ h₁, small e.2)
    (hs₂ : ∀ e ∈ h₂, small e.2) :
    mergeProps key combE h₁ m₁ h₂ m₂ = .ok p ↔ mergePropsWith key comb h₁ m₁ h₂ m₂ = .ok p ∧ ∀ e ∈ p.1, small e.2 := by
  unfold mergeProps mergePropsWith
  cases hf : mergeFirst key m₁ h₁ [] with
  | error e => simp
  | ok items₁ =>
    simp only
    have hi := mergeFirst_small key m₁ h₁ [] items₁ hs₁ nofun hf
    have ih := fun r => mergeSecond_ok hc key m₂ h₂ items₁ r hs₂ hi
    have hsm : ∀ items : IndexMap String (H × T),
        (∀ e ∈ reindexFrom 0 (items.values.map (·.1)), small e.2) ↔ AllSmall small items := by
      intro items
      rw [reindexFrom_small]
      unfold AllSmall values
      simp only [List.mem_map]
      constructor
      · exact fun h e he => h _ ⟨e.2, ⟨e, he, rfl⟩, rfl⟩
      · rintro h x ⟨y, ⟨e, he, rfl⟩, rfl⟩
        exact h e he
    cases he : mergeSecond key combE m₂ h₂ items₁ with
    | ok items =>
      obtain ⟨h1, h2⟩ := (ih items).1 he
      rw [h1]
      simp only [Except.ok.injEq]
      constructor
      · rintro rfl
        exact ⟨rfl, (hsm items).2 h2⟩
      · exact fun h => h.1
    | error e =>
      simp only [reduceCtorEq, false_iff]
      rintro ⟨h1, h2⟩
      cases hm : Verif.mergeSecond key comb m₂ h₂ items₁ with
      | error e' => rw [hm] at h1; cases h1
      | ok items =>
        rw [hm] at h1
        simp only [Except.ok.injEq] at h1
        subst h1
        have := (ih items).2 ⟨hm, (hsm items).1 h2⟩
        rw [he] at this
        cases this

theorem mergeProps_stops (hc : Checks small comb combE) (key : T → Except Panic String) (h₁ : IndexMap Nat H) (m₁ : IndexMap Nat T)
    (h₂ : IndexMap Nat H) (m₂ : IndexMap Nat T) (p : Panic) (hs₁ : ∀ e ∈ h₁, small e.2) (hs₂ : ∀ e ∈ h₂, small e.2)
    (h : mergeProps key combE h₁ m₁ h₂ m₂ = .error (.panic p)) : mergePropsWith key comb h₁ m₁ h₂ m₂ = .error p := by
  unfold mergeProps at h
  unfold mergePropsWith
  cases hf : mergeFirst key m₁ h₁ [] with
  | error e => rw [hf] at h; cases h; rfl
  | ok items₁ =>
    rw [hf] at h
    simp only at h ⊢
    have hi := mergeFirst_small key m₁ h₁ [] items₁ hs₁ nofun hf
    cases he : mergeSecond key combE m₂ h₂ items₁ with
    | ok items => rw [he] at h; cases h
    | error e =>
      rw [he] at h
      cases h
      rw [mergeSecond_stops hc key m₂ h₂ items₁ p hs₂ hi he]

end

/-- The debug build, for two reports: it has no other panics than the release build, but for overflows. -/
theorem merge_stops {a c : FileCoverage} (ha : a.CountsFit) (hc : c.CountsFit) {p : Panic} (h : merge a c = .error (.panic p)) :
    a.merge c = .error p := by
  have hs := mergeProps_stops checks_add (fun r => .ok (keyFromLoc r)) a.s a.statementMap c.s c.statementMap p ha.s hc.s
  have hf := mergeProps_stops checks_add (fun fn : Function => .ok (keyFromLoc fn.loc)) a.f a.fnMap c.f c.fnMap p ha.f hc.f
  have hb := mergeProps_stops checks_vec branchKey a.b a.branchMap c.b c.branchMap p ha.b hc.b
  unfold merge at h
  unfold FileCoverage.merge FileCoverage.mergeWith
  split at h
  · cases h
  rename_i h1
  rw [if_neg h1]
  split at h
  · cases h
  rename_i h2
  rw [if_neg h2]
  split at h
  · rename_i e he
    cases h
    rw [hs he]
  rename_i s sm he
  rw [((mergeProps_ok checks_add _ _ _ _ _ _ ha.s hc.s).1 he).1]
  simp only
  split at h
  · rename_i e he
    cases h
    rw [hf he]
  rename_i f fm he
  rw [((mergeProps_ok checks_add _ _ _ _ _ _ ha.f hc.f).1 he).1]
  simp only
  split at h
  · rename_i e he
    cases h
    rw [hb he]
  rename_i b bm he
  rw [((mergeProps_ok checks_vec _ _ _ _ _ _ ha.b hc.b).1 he).1]
  simp only
  split at h
  · rename_i bt cbt hta htc
    split at h
    · rename_i e he
      cases h
      have := mergeProps_stops checks_vec branchKey bt bm cbt c.branchMap p (ha.bT bt hta) (hc.bT cbt htc) he
      rw [hta, htc]
      simp only
      rw [this]
    · cases h
  · cases h

/-- The debug build, for two reports. -/
theorem merge_ok {a c m : FileCoverage} (ha : a.CountsFit) (hc : c.CountsFit) :
    merge a c = .ok m ↔ a.merge c = .ok m ∧ m.CountsFit := by
  have hs := fun p => mergeProps_ok checks_add (fun r => .ok (keyFromLoc r)) a.s a.statementMap c.s c.statementMap p ha.s hc.s
  have hf := fun p => mergeProps_ok checks_add (fun fn : Function => .ok (keyFromLoc fn.loc)) a.f a.fnMap c.f c.fnMap p ha.f hc.f
  have hb := fun p => mergeProps_ok checks_vec branchKey a.b a.branchMap c.b c.branchMap p ha.b hc.b
  unfold merge FileCoverage.merge FileCoverage.mergeWith
  by_cases h1 : c.all = true
  · simp only [if_pos h1, Except.ok.injEq]
    exact ⟨fun e => ⟨e, e ▸ ha⟩, fun e => e.1⟩
  rw [if_neg h1, if_neg h1]
  by_cases h2 : a.all = true
  · simp only [if_pos h2, Except.ok.injEq]
    exact ⟨fun e => ⟨e, e ▸ hc⟩, fun e => e.1⟩
  rw [if_neg h2, if_neg h2]
  have split : ∀ {A : Type} {x : Except Failure A} {y : Except Panic A} {P : A → Prop}, (∀ p, x = .ok p ↔ y = .ok p ∧ P p) →
      (∃ p, x = .ok p ∧ y = .ok p ∧ P p) ∨ (∃ e, x = .error e ∧ ∀ p, y = .ok p → ¬P p) := by
    intro A x y P hxy
    cases x with
    | ok p => exact .inl ⟨p, rfl, (hxy p).1 rfl⟩
    | error e => exact .inr ⟨e, rfl, fun p hp hP => by cases (hxy p).2 ⟨hp, hP⟩⟩
  rcases split hs with ⟨⟨s, sm⟩, hx, hy, hsm⟩ | ⟨e, hx, hy⟩
  case inr =>
    rw [hx]
    simp only [reduceCtorEq, false_iff]
    rintro ⟨h3, h4⟩
    split at h3
    · cases h3
    · rename_i s sm heq
      split at h3
      · cases h3
      · split at h3
        · cases h3
        · split at h3
          · split at h3
            · cases h3
            · cases h3
              exact hy _ heq h4.s
          · cases h3
            exact hy _ heq h4.s
  rw [hx, hy]
  simp only
  rcases split hf with ⟨⟨f, fm⟩, hx, hy, hfm⟩ | ⟨e, hx, hy⟩
  case inr =>
    rw [hx]
    simp only [reduceCtorEq, false_iff]
    rintro ⟨h3, h4⟩
    split at h3
    · cases h3
    · rename_i s sm heq
      split at h3
      · cases h3
      · split at h3
        · split at h3
          · cases h3
          · cases h3
            exact hy _ heq h4.f
        · cases h3
          exact hy _ heq h4.f
  rw [hx, hy]
  simp only
  rcases split hb with ⟨⟨b, bm⟩, hx, hy, hbm⟩ | ⟨e, hx, hy⟩
  case inr =>
    rw [hx]
    simp only [reduceCtorEq, false_iff]
    rintro ⟨h3, h4⟩
    split at h3
    · cases h3
    · rename_i s sm heq
      split at h3
      · split at h3
        · cases h3
        · cases h3
          exact hy _ heq h4.b
      · cases h3
        exact hy _ heq h4.b
  rw [hx, hy]
  simp only
  have hat := ha.bT
  have hct := hc.bT
  cases hta : a.bT with
  | none =>
    simp only [Except.ok.injEq]
    refine ⟨fun e => ⟨e, ?_⟩, fun e => e.1⟩
    subst e
    exact ⟨hsm, hfm, hbm, nofun⟩
  | some bt =>
    rw [hta] at hat
    cases htc : c.bT with
    | none =>
      simp only [Except.ok.injEq]
      refine ⟨fun e => ⟨e, ?_⟩, fun e => e.1⟩
      subst e
      exact ⟨hsm, hfm, hbm, hat⟩
    | some cbt =>
      rw [htc] at hct
      simp only
      have ht := fun p => mergeProps_ok checks_vec branchKey bt bm cbt c.branchMap p (hat bt rfl) (hct cbt rfl)
      rcases split ht with ⟨⟨t, tm⟩, hx, hy, htm⟩ | ⟨e, hx, hy⟩
      case inr =>
        rw [hx]
        simp only [reduceCtorEq, false_iff]
        rintro ⟨h3, h4⟩
        split at h3
        · cases h3
        · rename_i s sm heq
          cases h3
          exact hy _ heq (h4.bT _ rfl)
      rw [hx, hy]
      simp only [Except.ok.injEq]
      refine ⟨fun e => ⟨e, ?_⟩, fun e => e.1⟩
      subst e
      exact ⟨hsm, hfm, hbm, fun x hx => by cases hx; exact htm⟩

/-- All counts of all reports of a map are below 2^32. -/
def MapFits (m : CoverageMap) : Prop := ∀ e ∈ m, e.2.CountsFit

theorem MapFits.get {m : CoverageMap} (h : MapFits m) {k : String} {v : FileCoverage} (hv : IndexMap.get m k = some v) : v.CountsFit :=
  h _ (IndexMap.mem_of_get hv)

theorem mapFits_insert {k : String} {v : FileCoverage} (hv : v.CountsFit) : ∀ {m : CoverageMap}, MapFits m → MapFits (IndexMap.insert m k v)
  | [], _ => fun x hx => by rw [List.mem_singleton.1 hx]; exact hv
  | (k', v') :: m, hm => by
    have h1 : MapFits m := fun e he => hm e (List.mem_cons_of_mem _ he)
    simp only [IndexMap.insert]
    intro e he
    split at he
    · rcases List.mem_cons.1 he with rfl | he
      · exact hv
      · exact h1 e he
    · rcases List.mem_cons.1 he with rfl | he
      · exact hm _ (List.mem_cons_self ..)
      · exact mapFits_insert hv h1 e he

theorem mapFits_modify {m : CoverageMap} (hm : MapFits m) {k : String} {v v' : FileCoverage} (hv : IndexMap.get m k = some v) :
    MapFits (IndexMap.modify m k fun _ => v') ↔ v'.CountsFit := by
  constructor
  · intro h
    refine h.get (k := k) ?_
    rw [IndexMap.get_modify, if_pos rfl, hv]
    rfl
  · intro h
    clear hv
    induction m with
    | nil => nofun
    | cons e m ih =>
      have h1 : MapFits m := fun e he => hm e (List.mem_cons_of_mem _ he)
      obtain ⟨k', w⟩ := e
      simp only [IndexMap.modify]
      intro e he
      split at he
      · rcases List.mem_cons.1 he with rfl | he
        · exact h
        · exact h1 e he
      · rcases List.mem_cons.1 he with rfl | he
        · exact hm _ (List.mem_cons_self ..)
        · exact ih h1 e he

theorem addCoverageForFile_ok {m : CoverageMap} {c : FileCoverage} (hm : MapFits m) (hc : c.CountsFit) (m' : CoverageMap) :
    addCoverageForFile m c = .ok m' ↔ m.addCoverageForFile c = .ok m' ∧ MapFits m' := by
  unfold addCoverageForFile CoverageMap.addCoverageForFile
  cases hg : IndexMap.get m c.path with
  | none =>
    simp only [Except.ok.injEq]
    exact ⟨fun e => ⟨e, e ▸ mapFits_insert hc hm⟩, fun e => e.1⟩
  | some v =>
    simp only
    have hk := fun v' => merge_ok (m := v') (hm.get hg) hc
    cases he : merge v c with
    | ok v' =>
      obtain ⟨h1, h2⟩ := (hk v').1 he
      rw [h1]
      simp only [Except.ok.injEq]
      exact ⟨fun e => ⟨e, e ▸ (mapFits_modify hm hg).2 h2⟩, fun e => e.1⟩
    | error e =>
      simp only [reduceCtorEq, false_iff]
      rintro ⟨h1, h2⟩
      cases hx : v.merge c with
      | error e' => rw [hx] at h1; cases h1
      | ok v' =>
        rw [hx] at h1
        cases h1
        have := (hk v').2 ⟨hx, (mapFits_modify hm hg).1 h2⟩
        rw [he] at this
        cases this

theorem addAll_ok : ∀ (cs : List FileCoverage) {m : CoverageMap}, MapFits m → (∀ c ∈ cs, c.CountsFit) → ∀ M : CoverageMap,
    (addAll m cs = .ok M ↔ m.addAll cs = .ok M ∧ ∀ cs', cs' <+: cs → ∀ M', m.addAll cs' = .ok M' → MapFits M')
  | [], m, hm, _, M => by
    simp only [addAll, CoverageMap.addAll, Except.ok.injEq, List.prefix_nil]
    refine ⟨fun e => ⟨e, ?_⟩, fun e => e.1⟩
    rintro cs' rfl M' h
    cases h
    exact hm
  | c :: cs, m, hm, hc, M => by
    have hk := fun m' => addCoverageForFile_ok hm (hc c (List.mem_cons_self ..)) m'
    simp only [addAll, CoverageMap.addAll]
    cases he : addCoverageForFile m c with
    | error e =>
      simp only [reduceCtorEq, false_iff]
      rintro ⟨h1, h2⟩
      cases hx : m.addCoverageForFile c with
      | error e' => rw [hx] at h1; cases h1
      | ok m' =>
        have h3 := h2 [c] ⟨cs, rfl⟩ m' (by simp only [CoverageMap.addAll]; rw [hx])
        have := (hk m').2 ⟨hx, h3⟩
        rw [he] at this
        cases this
    | ok m' =>
      obtain ⟨h1, h2⟩ := (hk m').1 he
      rw [h1]
      simp only
      rw [addAll_ok cs h2 (fun c h => hc c (List.mem_cons_of_mem _ h)) M]
      refine and_congr_right fun _ => ⟨fun h cs' hp M' hM => ?_, fun h cs' hp M' hM => ?_⟩
      · rcases List.prefix_cons_iff.1 hp with rfl | ⟨t, rfl, ht⟩
        · cases hM
          exact hm
        · simp only [CoverageMap.addAll] at hM
          rw [h1] at hM
          exact h t ht M' hM
      · refine h (c :: cs') (List.prefix_cons_inj c |>.2 hp) M' ?_
        simp only [CoverageMap.addAll]
        rw [h1]
        exact hM

theorem addCoverageForFile_stops {m : CoverageMap} {c : FileCoverage} (hm : MapFits m) (hc : c.CountsFit) {p : Panic}
    (h : addCoverageForFile m c = .error (.panic p)) : m.addCoverageForFile c = .error p := by
  unfold addCoverageForFile at h
  unfold CoverageMap.addCoverageForFile
  split at h
  · rename_i v hg
    rw [hg]
    simp only
    split at h
    · rename_i e he
      cases h
      rw [merge_stops (hm.get hg) hc he]
    · cases h
  · cases h

theorem addAll_stops : ∀ (cs : List FileCoverage) {m : CoverageMap}, MapFits m → (∀ c ∈ cs, c.CountsFit) → ∀ p : Panic,
    addAll m cs = .error (.panic p) → m.addAll cs = .error p
  | [], _, _, _, _, h => by cases h
  | c :: cs, m, hm, hc, p, h => by
    simp only [addAll] at h
    simp only [CoverageMap.addAll]
    split at h
    · rename_i e he
      cases h
      rw [addCoverageForFile_stops hm (hc c (List.mem_cons_self ..)) he]
    · rename_i m' he
      obtain ⟨h1, h2⟩ := (addCoverageForFile_ok hm (hc c (List.mem_cons_self ..)) m').1 he
      rw [h1]
      exact addAll_stops cs h2 (fun c h => hc c (List.mem_cons_of_mem _ h)) p h

end Debug
end Verif
