import Verif.Spec.Joint
import Verif.Lemmas.EndToEnd
import Verif.Props.Runtime
/-
Executions in a realm are executions, and lives of the realm.
-/
namespace Verif.Runtime
open Node Js Template Sem

variable {V A : Type} {w : World} {gcv : String} {k : Nat} {solid : V → Bool}

theorem hitsOn_append (es fs : List Event) : hitsOn k (es ++ fs) = hitsOn k es ++ hitsOn k fs := by
  induction es with
  | nil => rfl
  | cons e es ih =>
    cases e with
    | load i => exact ih
    | hit n c =>
      rw [List.cons_append, hitsOn, hitsOn]
      split
      · rw [ih, List.cons_append]
      · exact ih

theorem hitsOn_self (c : Counter) (es : List Event) : hitsOn k (.hit k c :: es) = c :: hitsOn k es := by
  rw [hitsOn, if_pos rfl]

/-- What an instance does in a realm is an execution. -/
theorem Performs.run {r r' : Realm} {b : Books} {st st' : List Node} {t : Task} {tr : List (Ev V A)} {o : Sem.Outcome V A}
    {es : List Event} (h : Performs w gcv k solid r b st t tr o st' r' es) : Run solid st t tr o st' := by
  induction h with
  | before _ _ _ ih => exact ih
  | behind _ _ _ ih => exact ih
  | cut => exact .cut _ _
  | counter h1 _ => exact .counter h1
  | wrap h1 _ _ ih => exact .wrap h1 ih
  | @truth r b st n c e mid branch arm r1 inst env operand tr v st' r2 es s u u' h1 h2 _ _ _ _ _ _ _ _ _ ih =>
    have h3 := Run.truth (solid := solid) h1 ih
    rw [h2] at h3
    exact h3
  | truthEnd h1 _ _ h2 ih => exact .truthEnd h1 ih h2
  | block h1 _ h2 _ ih ih' => exact .block h1 ih h2 ih'
  | blockCut h1 _ ih => exact .blockCut h1 ih
  | node h1 _ ih => exact .node h1 ih
  | nil => exact .nil
  | count _ _ ih => exact .count ih
  | setup h1 _ ih => exact .setup h1 ih
  | next h1 _ _ ih ih' => exact .next h1 ih ih'
  | stop h1 _ h2 ih => exact .stop h1 ih h2
  | answer h1 => exact .answer h1
  | pick h1 h2 _ h3 _ ih ih' => exact .pick h1 h2 ih h3 ih'
  | pickCut h1 h2 _ ih => exact .pickCut h1 h2 ih

/-! ### Lives -/

theorem Lives.append {r r1 r2 : Realm} {b : Books} {es fs : List Event} (h : Lives w gcv r b r1 es)
    (h' : Lives w gcv r1 (b.after es) r2 fs) : Lives w gcv r b r2 (es ++ fs) := by
  generalize hb : b.after es = b1 at h'
  induction h' with
  | stay => rw [List.append_nil]; exact h
  | code _ allowed ih => exact .code (ih h hb) allowed
  | load _ proper run ih => rw [← List.append_assoc]; exact .load (ih h hb) proper run
  | hit _ i p c run ih =>
    subst hb
    rw [← List.append_assoc]
    exact .hit (ih h rfl) i p (by rw [after_append]; exact c) run
  | wrapper _ i p meanwhile o ps p' c run ih _ =>
    subst hb
    rw [← List.append_assoc, ← List.append_assoc]
    refine .wrapper (ih h rfl) i p (by rw [after_append]; exact meanwhile) o ps p' ?_ run
    rw [List.append_assoc, after_append]
    exact c

/-- A cell stays. -/
theorem cell_after {b : Books} {c : Counter} (h : b.Allows gcv (.hit k c)) (es : List Event) : (b.after es).Allows gcv (.hit k c) := by
  induction es generalizing b with
  | nil => exact h
  | cons e es ih =>
    refine ih ?_
    obtain ⟨m, hm, x, hx, hc⟩ := h
    have hm : b.writes[k]? = some m := hm
    have hx : b.sets[m]? = some x := hx
    cases e with
    | load i =>
      cases hk : b.kept i with
      | some n =>
        refine ⟨m, ?_, x, ?_, hc⟩
        · change (b.load i).writes[k]? = some m
          rw [load_kept hk]
          exact prefix_get (List.prefix_append _ _) hm
        · change (b.load i).sets[m]? = some x
          rw [load_kept hk]
          exact hx
      | none =>
        refine ⟨m, ?_, x, ?_, hc⟩
        · change (b.load i).writes[k]? = some m
          rw [load_none hk]
          exact prefix_get (List.prefix_append _ _) hm
        · change (b.load i).sets[m]? = some x
          rw [load_none hk]
          exact prefix_get (List.prefix_append _ _) hx
    | hit n c' =>
      cases hk : b.writes[n]? with
      | none =>
        refine ⟨m, ?_, x, ?_, hc⟩
        · change (b.hit n c').writes[k]? = some m
          rw [hit_writes]
          exact hm
        · change (b.hit n c').sets[m]? = some x
          unfold Books.hit
          rw [hk]
          exact hx
      | some j =>
        refine ⟨m, ?_, (x.1, if j = m then x.2.hit c' else x.2), ?_, ?_⟩
        · change (b.hit n c').writes[k]? = some m
          rw [hit_writes]
          exact hm
        · change (b.hit n c').sets[m]? = some _
          rw [hit_sets hk]
          exact get_modify hx
        · change FileCoverage.count (if j = m then x.2.hit c' else x.2) c |>.isSome
          split
          · exact (FileCoverage.hits_some x.2 [c'] c).trans hc
          · exact hc

theorem Counts.lives {r r' : Realm} {b : Books} {c : Counter} (h : Counts w k r c r') (hc : b.Allows gcv (.hit k c)) :
    Lives w gcv r b r' [.hit k c] := by
  obtain ⟨inst, env, st, v, h1, h2, h3, rfl⟩ := h
  exact .hit (.stay r b) h1 h2 hc h3

theorem increments_append (tr tr' : List (Ev V A)) : increments (tr ++ tr') = increments tr ++ increments tr' := by
  unfold increments
  exact List.filterMap_append ..

/-- The counters of the node itself are in the set. -/
def Within (S : Counter → Prop) (n : Node) : Prop := ∀ c, 0 < imm c n → S c

/-- The counters of a task are in the set. -/
def TaskWithin (S : Counter → Prop) : Task → Prop
  | .node n => All (Within S) n
  | .list ss => (∀ s ∈ ss, isInjectedItem s = false → All (Within S) s) ∧ ∀ s ∈ ss, ∀ c, isStmtOf c s = true → S c
  | .turn => True

theorem within_sites (p : Node) : All (Within (· ∈ p.sites)) p := by
  intro m hm c hc
  have h1 := cc_comps c m
  have h2 := hm.cc_le c
  by_contra h
  have h3 : cc c p = 0 := List.count_eq_zero.2 h
  omega

theorem within_list {S : Counter → Prop} {n : Node} {ss : List Node} (h : All (Within S) n) (hl : look n = .list ss) :
    TaskWithin S (.list ss) := by
  refine ⟨fun s hs hi => h.comp (comps_list hl hs hi), fun s hs c hc => h.self c ?_⟩
  unfold imm
  rw [hl]
  exact List.countP_pos_iff.2 ⟨s, hs, hc⟩

theorem within_tail {S : Counter → Prop} {s : Node} {ss : List Node} (h : TaskWithin S (.list (s :: ss))) : TaskWithin S (.list ss) :=
  ⟨fun x hx => h.1 x (List.mem_cons_of_mem _ hx), fun x hx => h.2 x (List.mem_cons_of_mem _ hx)⟩

/-- What an instance does in a realm is a part of the life of the realm, in which the instance hits the counters of the execution. -/
theorem Performs.lives {S : Counter → Prop} {r r' : Realm} {b : Books} {st st' : List Node} {t : Task} {tr : List (Ev V A)}
    {o : Sem.Outcome V A} {es : List Event} (h : Performs w gcv k solid r b st t tr o st' r' es)
    (hst : ∀ n ∈ st, Shown (Within S) n) (ht : TaskWithin S t) (hc : ∀ c, S c → b.Allows gcv (.hit k c)) :
    (∀ n ∈ st', Shown (Within S) n) ∧ Lives w gcv r b r' es ∧ hitsOn k es = increments tr := by
  induction h with
  | before h1 h2 _ ih =>
    obtain ⟨h0, h3, h4⟩ := ih hst ht fun c h => cell_after (hc c h) _
    exact ⟨h0, h1.append h3, by rw [hitsOn_append, h2, h4]; rfl⟩
  | behind _ h1 h2 ih =>
    obtain ⟨h0, h3, h4⟩ := ih hst ht hc
    exact ⟨h0, h3.append h1, by rw [hitsOn_append, h2, h4, List.append_nil]⟩
  | cut => exact ⟨hst, .stay _ _, rfl⟩
  | @counter r b st n c v r' hl h1 =>
    have hS : S c := ht.self c (by unfold imm; rw [hl]; simp)
    exact ⟨hst, h1.lives (hc c hS), hitsOn_self _ _⟩
  | @wrap r b st n c e r1 tr o st' r' es hl h1 _ ih =>
    have hS : S c := ht.self c (by unfold imm; rw [hl]; simp)
    obtain ⟨h0, h3, h4⟩ := ih hst (ht.comp (comps_wrap hl)) fun c h => cell_after (hc c h) _
    exact ⟨h0, (h1.lives (hc c hS)).append h3, by rw [hitsOn_self, h4]; rfl⟩
  | @truth r b st n c e mid branch arm r1 inst env operand tr v st' r2 es s u u' hl hm h1 h2 h3 _ h4 h5 h6 h7 h8 ih =>
    have hS : S c := ht.self c (by unfold imm; rw [hl]; simp only [if_true]; omega)
    have hT : S (.bT branch arm) := ht.self _ (by
      have h9 : 0 < cc (.bT branch arm) mid := by
        unfold cc
        rw [hm]
        simp
      unfold imm
      rw [hl]
      simp only
      omega)
    have he : increments (.count c :: (tr ++ if v.any solid then [.count (.bT branch arm)] else [])) =
        c :: (increments tr ++ if v.any solid then [.bT branch arm] else []) := by
      refine (congrArg (c :: ·) (increments_append _ _)).trans ?_
      cases v.any solid <;> rfl
    obtain ⟨g0, g1, g2⟩ := ih hst (ht.comp (comps_truth hl)) fun c h => cell_after (hc c h) _
    have g3 := Lives.wrapper (h1.lives (hc c hS)) h2 h3 g1 h4 h5 h6 (cell_after (hc _ hT) _) h8
    rw [← h7] at g3
    refine ⟨g0, g3, ?_⟩
    rw [he, hitsOn_self, hitsOn_append, g2]
    refine congrArg (fun x => c :: (increments tr ++ x)) ?_
    cases v.any solid
    · rfl
    · exact hitsOn_self _ _
  | @truthEnd r b st n c e mid r1 tr o st' r' es hl h1 _ _ ih =>
    have hS : S c := ht.self c (by unfold imm; rw [hl]; simp only [if_true]; omega)
    obtain ⟨h0, h3, h4⟩ := ih hst (ht.comp (comps_truth hl)) fun c h => cell_after (hc c h) _
    exact ⟨h0, (h1.lives (hc c hS)).append h3, by rw [hitsOn_self, h4]; rfl⟩
  | @block r b st n ss tr o st1 r1 es tr' o' st' r' es' hl _ _ _ ih ih' =>
    have he : increments (.present (face n) :: (tr ++ .got o :: tr')) = increments tr ++ increments tr' := increments_append _ _
    obtain ⟨h0, h1, h2⟩ := ih (shown_block hst ht hl) (within_list ht hl) hc
    obtain ⟨h0, h3, h4⟩ := ih' h0 trivial fun c h => cell_after (hc c h) _
    exact ⟨h0, h1.append h3, by rw [he, hitsOn_append, h2, h4]⟩
  | blockCut hl _ ih => exact ih (shown_block hst ht hl) (within_list ht hl) hc
  | node hl _ ih => exact ih (shown_push hst ht hl) trivial hc
  | nil => exact ⟨hst, .stay _ _, rfl⟩
  | @count r b st sp c sp' cs ss r1 tr o st' r' es h1 _ ih =>
    have hS : S c := ht.2 _ List.mem_cons_self c (by simp [isStmtOf])
    obtain ⟨h0, h3, h4⟩ := ih hst (within_tail ht) fun c h => cell_after (hc c h) _
    exact ⟨h0, (h1.lives (hc c hS)).append h3, by rw [hitsOn_self, h4]; rfl⟩
  | setup _ _ ih => exact ih hst (within_tail ht) hc
  | next hi _ _ ih ih' =>
    obtain ⟨h0, h1, h2⟩ := ih hst (ht.1 _ List.mem_cons_self hi) hc
    obtain ⟨h0, h3, h4⟩ := ih' h0 (within_tail ht) fun c h => cell_after (hc c h) _
    exact ⟨h0, h1.append h3, by rw [increments_append, hitsOn_append, h2, h4]⟩
  | stop hi _ _ ih => exact ih hst (ht.1 _ List.mem_cons_self hi) hc
  | answer => exact ⟨hst, .stay _ _, rfl⟩
  | @pick r b st h n j c tr o st1 r1 es tr' o' st' r' es' hn hx _ _ _ ih ih' =>
    have he : increments (.pick h j (face n) :: (tr ++ .got o :: tr')) = increments tr ++ increments tr' := increments_append _ _
    obtain ⟨h0, h1, h2⟩ := ih hst (shown_kid (hst n (List.mem_of_getElem? hn)) hx).2 hc
    obtain ⟨h0, h3, h4⟩ := ih' h0 trivial fun c h => cell_after (hc c h) _
    exact ⟨h0, h1.append h3, by rw [he, hitsOn_append, h2, h4]⟩
  | pickCut hn hx _ ih => exact ih hst (shown_kid (hst _ (List.mem_of_getElem? hn)) hx).2 hc

/-- The same for the execution of a program. -/
theorem Executes.lives {p : Node} {r r' : Realm} {b : Books} {tr : List (Ev V A)} {o o' : Sem.Outcome V A} {es : List Event}
    (h : Executes w gcv k solid p r b tr o o' r' es) (hc : ∀ c ∈ p.sites, b.Allows gcv (.hit k c)) :
    Exec solid p tr o o' ∧ Lives w gcv r b r' es ∧ hitsOn k es = increments tr := by
  obtain ⟨tr1, tr2, st1, st2, r1, es1, es2, rfl, rfl, h1, h2⟩ := h
  obtain ⟨g1, g2, g3⟩ := h1.lives (S := (· ∈ p.sites)) (by intro n hn; cases hn) (within_sites p) hc
  obtain ⟨-, g4, g5⟩ := h2.lives g1 trivial fun c h => cell_after (hc c h) _
  exact ⟨⟨tr1, tr2, st1, st2, rfl, h1.run, h2.run⟩, g2.append g4, by rw [hitsOn_append, increments_append, g3, g5]⟩

/-! ### Several instances -/

/-- The hits of the instances with a property. -/
def hitsIf (P : Nat → Bool) : List Event → List Counter
  | [] => []
  | .load _ :: es => hitsIf P es
  | .hit n c :: es => if P n then c :: hitsIf P es else hitsIf P es

theorem pathsAfter_prefix (paths : List String) (es : List Event) : paths <+: pathsAfter paths es := by
  induction es generalizing paths with
  | nil => exact List.prefix_refl _
  | cons e es ih =>
    cases e with
    | load i => exact (List.prefix_append _ _).trans (ih _)
    | hit n c => exact ih paths

theorem hitsOf_if {path : String} {b : Books} {paths : List String} (es : List Event) (hs : Sane b paths) (ha : b.AllowsAll gcv es) :
    hitsOf path paths es = hitsIf (fun n => decide ((pathsAfter paths es)[n]? = some path)) es := by
  induction es generalizing b paths with
  | nil => rfl
  | cons e es ih =>
    cases e with
    | load i => exact ih (hs.load i) ha.2
    | hit n c =>
      have h1 := ih (hs.hit n c) ha.2
      obtain ⟨m, hm, -⟩ := ha.1
      have hn : n < paths.length := by
        rw [hs.len]
        exact lt_of_getElem? hm
      have h2 : (pathsAfter paths es)[n]? = paths[n]? := by
        rw [List.getElem?_eq_getElem hn]
        exact prefix_get (pathsAfter_prefix paths es) (List.getElem?_eq_getElem hn)
      rw [hitsOf, hitsIf, h1]
      change _ = if decide ((pathsAfter paths es)[n]? = some path) = true then _ else _
      rw [h2]
      by_cases hp : paths[n]? = some path
      · rw [if_pos hp, if_pos (decide_eq_true hp)]
        rfl
      · rw [if_neg hp, if_neg (by simpa using hp)]
        rfl

theorem flatten_insert {ks : List Nat} (hn : ks.Nodup) (n : Nat) (c : Counter) (f : Nat → List Counter) :
    (ks.map fun k => if n = k then c :: f k else f k).flatten.Perm
      (if n ∈ ks then c :: (ks.map f).flatten else (ks.map f).flatten) := by
  induction ks with
  | nil => exact .refl _
  | cons k ks ih =>
    obtain ⟨h1, h2⟩ := List.nodup_cons.1 hn
    have h3 := ih h2
    simp only [List.map_cons, List.flatten_cons]
    by_cases hk : n = k
    · subst hk
      rw [if_neg h1] at h3
      rw [if_pos rfl, if_pos List.mem_cons_self]
      exact (h3.append_left _).cons c
    · rw [if_neg hk]
      by_cases hm : n ∈ ks
      · rw [if_pos hm] at h3
        rw [if_pos (List.mem_cons_of_mem _ hm)]
        exact (h3.append_left _).trans List.perm_middle
      · rw [if_neg hm] at h3
        rw [if_neg (by simp [hk, hm])]
        exact h3.append_left _

theorem hitsIf_perm {P : Nat → Bool} {ks : List Nat} (hn : ks.Nodup) (es : List Event)
    (h : ∀ n c, Event.hit n c ∈ es → (P n = true ↔ n ∈ ks)) :
    (hitsIf P es).Perm (ks.map fun k => hitsOn k es).flatten := by
  induction es with
  | nil =>
    have : (ks.map fun k => hitsOn k []).flatten = [] := by
      rw [List.flatten_eq_nil_iff]
      intro l hl
      obtain ⟨_, _, rfl⟩ := List.mem_map.1 hl
      rfl
    rw [this]
    exact .refl _
  | cons e es ih =>
    have h1 := ih fun n c hm => h n c (List.mem_cons_of_mem _ hm)
    cases e with
    | load i => exact h1
    | hit n c =>
      refine List.Perm.trans ?_ (flatten_insert hn n c fun k => hitsOn k es).symm
      have h2 := h n c List.mem_cons_self
      rw [hitsIf]
      by_cases hp : P n = true
      · rw [if_pos hp, if_pos (h2.1 hp)]
        exact h1.cons c
      · rw [if_neg hp, if_neg (fun hm => hp (h2.2 hm))]
        exact h1

/-- The hits of a file are those of its instances. -/
theorem hitsOf_instances {path : String} {es : List Event} (ha : Books.empty.AllowsAll gcv es) :
    (hitsOf path [] es).Perm ((instancesOf path es).map fun k => hitsOn k es).flatten := by
  rw [hitsOf_if es Sane.empty ha]
  refine hitsIf_perm (List.nodup_range.filter _) es fun n c _ => ?_
  rw [List.mem_filter, List.mem_range]
  refine ⟨fun h => ⟨lt_of_getElem? (of_decide_eq_true h), h⟩, fun h => h.2⟩

/-- An instance of a file has the cells of the data of the file, as long as the file is loaded with one hash only. -/
theorem cells_of_loaded {pre es es1 es2 : List Event} {i : Input} {c : Counter} (hfirst : ∀ j, Event.load j ∈ pre → j.path ≠ i.path)
    (hsame : SameHash i.path i.hash es) (he : pre ++ .load i :: es = es1 ++ es2) (hk : (pathsAfter [] es1)[k]? = some i.path)
    (hc : (i.data.count c).isSome) : (Books.empty.after es1).Allows gcv (.hit k c) := by
  have hno : ∀ (l : List Event) (ps : List String), (∀ j, Event.load j ∈ l → j.path ≠ i.path) → i.path ∉ ps → i.path ∉ pathsAfter ps l := by
    intro l
    induction l with
    | nil => exact fun _ _ h => h
    | cons e l ih =>
      intro ps hl hps
      have hl' : ∀ j, Event.load j ∈ l → j.path ≠ i.path := fun j hj => hl j (List.mem_cons_of_mem _ hj)
      cases e with
      | load j =>
        refine ih _ hl' ?_
        simp only [List.mem_append, List.mem_singleton, not_or]
        exact ⟨hps, fun e => hl j List.mem_cons_self e.symm⟩
      | hit n c => exact ih _ hl' hps
  have habs : ∀ t, pre = es1 ++ t → False := fun t ht => hno es1 [] (fun j hj => hfirst j (by rw [ht]; exact List.mem_append_left _ hj))
    (by simp) (List.mem_of_getElem? hk)
  rcases List.append_eq_append_iff.1 he with ⟨t, h1, h2⟩ | ⟨t, h1, _⟩
  · cases t with
    | nil => exact (habs [] (by simpa using h1.symm)).elim
    | cons x t =>
      rw [List.cons_append] at h2
      injection h2 with h2 h3
      subst h2 h1
      obtain ⟨g1, g2⟩ := books_accumulated pre t i hfirst fun j hj => hsame j (by rw [h3]; exact List.mem_append_left _ hj)
      have hs := Sane.empty.after (pre ++ .load i :: t)
      have hkl : k < (Books.empty.after (pre ++ .load i :: t)).writes.length := by
        rw [← hs.len]
        exact lt_of_getElem? hk
      have hw := List.getElem?_eq_getElem hkl
      obtain ⟨e, h4, h5⟩ := hs.writes k _ hw
      rw [hk] at h5
      injection h5 with h5
      obtain ⟨h6, -⟩ := g1 _ e h4 h5.symm
      unfold Books.at at g2
      rw [h6] at g2
      have g2 : _ = _ := g2
      simp only at g2
      rw [h4] at g2
      injection g2 with g2
      refine ⟨_, hw, e, h4, ?_⟩
      rw [g2]
      exact (FileCoverage.hits_some _ _ _).trans hc
  · exact (habs t h1).elim

end Verif.Runtime
