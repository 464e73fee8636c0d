import Verif.Lemmas.FollowSteps
import Verif.Lemmas.SemClean
/-
An execution can come to every part of an instrumented program that is not itself part of a counter.
-/
namespace Verif
open Node

namespace Sem

theorem tags_mk (k : Kind) (sp : Span) (cs : List Node) : tags (mk k sp cs) = (k, sp) :: tagsList cs := by
  rw [tags]

theorem tagsList_count (t : Tag) (cs : List Node) : (tagsList cs).count t = sumOf (fun n => (tags n).count t) cs := by
  induction cs with
  | nil => rfl
  | cons c cs ih => rw [tagsList, List.count_append, ih, sumOf_cons]

/-- How often a tag occurs in a tree as it is. -/
def raw (t : Tag) (n : Node) : Nat := (tags n).count t

theorem raw_mk (t : Tag) (k : Kind) (sp : Span) (cs : List Node) :
    raw t (mk k sp cs) = (if (k, sp) = t then 1 else 0) + sumOf (raw t) cs := by
  unfold raw
  rw [tags_mk, List.count_cons, tagsList_count, Nat.add_comm]
  congr 1
  by_cases h : (k, sp) = t <;> simp [h]

theorem raw_toBlock {t : Tag} (ht : t.2 ≠ Span.dummy) (b : Node) : raw t (toBlock b) = raw t b := by
  unfold toBlock
  split
  · rfl
  · rw [raw_mk, if_neg (ne_dummy ht _), sumOf_cons, sumOf_nil, Nat.zero_add, Nat.add_zero]

theorem raw_none {t : Tag} (hn : t.1 ≠ .none) {b : Node} (h : b.isNone = true) : raw t b = 0 := by
  unfold Node.isNone at h
  split at h
  · rw [raw_mk, if_neg (by rintro rfl; exact hn rfl)]
    rfl
  · cases h

theorem sumOf_mapLast {μ : Node → Nat} {f : Node → Node} (h : ∀ x, μ (f x) = μ x) (l : List Node) :
    sumOf μ (mapLast f l) = sumOf μ l := by
  induction l with
  | nil => rfl
  | cons c cs ih =>
    cases cs with
    | nil => simp only [mapLast, sumOf_cons, h]
    | cons d ds =>
      rw [mapLast, sumOf_cons, ih]
      · exact (sumOf_cons ..).symm
      · intro h
        cases h

/-- Normalising bodies adds only the `return` of an arrow function. -/
theorem raw_tidyBodies {t : Tag} (ht : t.2 ≠ Span.dummy) (hn : t.1 ≠ .none) (k : Kind) (cs : List Node) :
    sumOf (raw t) (tidyBodies k cs) = extra t k cs + sumOf (raw t) cs := by
  have hb := raw_toBlock ht
  unfold toBlock at hb
  have hd : raw t (mk .block Span.dummy []) = 0 := by
    rw [raw_mk, if_neg (ne_dummy ht _)]
    rfl
  unfold tidyBodies
  split
  · next test cons alt =>
    rw [extra_of (by simp)]
    simp only [sumOf_cons, sumOf_nil, hb]
    split
    · next h => rw [hd, raw_none hn h]; omega
    · rw [hb, Nat.zero_add]
  · rw [extra_of (by simp), sumOf_mapLast hb, Nat.zero_add]
  · rw [extra_of (by simp)]
    simp only [sumOf_cons, sumOf_nil, hb, Nat.zero_add]
  · next a params body =>
    simp only [sumOf_cons, sumOf_nil, extra]
    by_cases h : body.kind = .block
    · have : asArrowBody body = body := by
        cases body
        cases h
        rfl
      rw [this, if_pos h, Nat.zero_add]
    · rw [asArrowBody_of_ne h, if_neg h, raw_mk, if_neg (ne_dummy ht _)]
      simp only [sumOf_cons, sumOf_nil, raw_mk t .returnStmt]
      omega
  · next h1 h2 h3 h4 =>
    have : extra t k cs = 0 := by
      unfold extra
      split
      · exact (h4 _ _ _ rfl rfl).elim
      · rfl
    rw [this, Nat.zero_add]

theorem norm_mk (k : Kind) (sp : Span) (cs : List Node) : norm (mk k sp cs) = mk k sp (tidyBodies k (cs.map norm)) := by
  rw [norm, normList_eq]

theorem norm_kind (n : Node) : (norm n).kind = n.kind := by
  cases n
  rw [norm_mk]
  rfl

theorem norm_span (n : Node) : (norm n).span = n.span := by
  cases n
  rw [norm_mk]
  rfl

theorem sumOf_map (μ : Node → Nat) (f : Node → Node) (l : List Node) : sumOf μ (l.map f) = sumOf (fun x => μ (f x)) l := by
  unfold sumOf
  rw [List.map_map]
  rfl

theorem sumOf_congr {μ ν : Node → Nat} {l : List Node} (h : ∀ x ∈ l, μ x = ν x) : sumOf μ l = sumOf ν l := by
  induction l with
  | nil => rfl
  | cons x l ih => rw [sumOf_cons, sumOf_cons, h x (by simp), ih fun y hy => h y (by simp [hy])]

theorem extra_norm (t : Tag) (k : Kind) (cs : List Node) : extra t k (cs.map norm) = extra t k cs := by
  unfold extra
  cases k with
  | arrow a =>
    match cs with
    | [] => rfl
    | [x] => rfl
    | [x, y] => simp only [List.map_cons, List.map_nil, norm_kind, norm_span]
    | x :: y :: z :: r => rfl
  | _ => rfl

/-- `weight` is the number of nodes with a tag in the normal form. -/
theorem weight_norm {t : Tag} (ht : t.2 ≠ Span.dummy) (hn : t.1 ≠ .none) (n : Node) : (tags (norm n)).count t = weight t n := by
  induction n using Node.ind with
  | h k sp cs ih =>
    rw [weight_mk, norm_mk]
    change raw t _ = _
    rw [raw_mk, raw_tidyBodies ht hn, extra_norm, sumOf_map, sumOf_congr (μ := fun x => raw t x.norm) (ν := weight t) ih, Nat.add_assoc]

theorem weight_templated {t : Tag} (ht : t.2 ≠ Span.dummy) {n p' : Node} (h : Sound.Templated n p') :
    weight t p' = weight t n := by
  have h1 : ∀ k, weight t (mk k Span.dummy []) = 0 := by
    intro k
    rw [weight_mk, if_neg (ne_dummy ht _)]
    unfold extra
    split
    · next h => cases h
    · rfl
  cases h with
  | module sp items =>
    rw [weight_mk, weight_mk, extra_of (by simp), extra_of (by simp)]
    cases items with
    | nil => simp only [Visitor.insertModuleTemplates, sumOf_cons, h1, sumOf_nil]
    | cons i items => simp only [Visitor.insertModuleTemplates, sumOf_cons, h1]; omega
  | script sp items =>
    rw [weight_mk, weight_mk, extra_of (by simp), extra_of (by simp)]
    simp only [sumOf_cons, h1, Nat.zero_add]

end Sem

namespace Steps
open Sem

theorem each_trans {a b c : Node} (h : b ∈ each a) (h' : c ∈ each b) : c ∈ each a := by
  induction a using Node.ind with
  | h k sp cs ih =>
    rcases mem_each_mk.1 h with rfl | ⟨x, hx, h⟩
    · exact h'
    · exact mem_each_mk.2 (.inr ⟨x, hx, ih x hx h⟩)

theorem clean_fit {n : Node} (h : Clean n) : ∀ m ∈ each n, Fit m := by
  intro m hm
  have h1 := each_of_any h
  have inj : ∀ x ∈ each m, x.kind.injected = false := by
    intro x hx
    exact h1 x (each_trans hm hx)
  refine ⟨fun hi => ?_, ?_, ?_, ?_⟩
  · rw [inj m (each_self m)] at hi
    cases hi
  · rintro sp op sp1 sp2 cs e mid sp3 cs' rfl
    have := inj (mk (.temp false) sp3 cs') (mem_each_mk.2 (.inr ⟨_, by simp, each_self _⟩))
    cases this
  · intro _ x hx
    cases hi : inner x with
    | false => rfl
    | true =>
      obtain ⟨sp, op, sp1, sp2, cs, e, mid, sp3, cs', rfl⟩ := inner_inv hi
      have := inj (mk (.temp false) sp3 cs') (by
        cases m
        exact mem_each_mk.2 (.inr ⟨_, hx, mem_each_mk.2 (.inr ⟨_, by simp, each_self _⟩)⟩))
      cases this
  · rintro sp sp1 c sp2 cs e rfl
    have := inj (mk (.counter c) sp2 cs) (mem_each_mk.2 (.inr ⟨_, List.mem_singleton.2 rfl,
      mem_each_mk.2 (.inr ⟨_, by simp, each_self _⟩)⟩))
    cases this

theorem fit_templated {n p' : Node} (h : Sound.Templated n p') (hn : ∀ m ∈ each n, Fit m) : ∀ m ∈ each p', Fit m := by
  have hd : ∀ m ∈ each (mk .covDecl Span.dummy []), Fit m := fit_any (by decide)
  have hc : ∀ m ∈ each (mk .covCall Span.dummy []), Fit m := fit_any (by decide)
  cases h with
  | module sp items =>
    intro m hm
    rcases mem_each_mk.1 hm with rfl | ⟨c, hx, hm'⟩
    · exact .trivial (by simp [Node.kind]) rfl rfl (by simp [Node.kind])
    · have : c ∈ items ∨ c = mk .covDecl Span.dummy [] ∨ c = mk .covCall Span.dummy [] := by
        cases items with
        | nil => simpa [Visitor.insertModuleTemplates] using hx
        | cons i items =>
          simp only [Visitor.insertModuleTemplates, List.mem_cons] at hx ⊢
          grind
      rcases this with h | rfl | rfl
      · exact hn m (mem_each_mk.2 (.inr ⟨c, h, hm'⟩))
      · exact hd m hm'
      · exact hc m hm'
  | script sp items =>
    intro m hm
    rcases mem_each_mk.1 hm with rfl | ⟨c, hx, hm⟩
    · exact .trivial (by simp [Node.kind]) rfl rfl (by simp [Node.kind])
    · simp only [List.mem_cons] at hx
      rcases hx with rfl | rfl | hx
      · exact hd m hm
      · exact hc m hm
      · exact hn m (mem_each_mk.2 (.inr ⟨c, hx, hm⟩))

/-- Kinds of nodes that counters are made of. -/
def hull : Kind → Bool
  | .seq | .assign _ | .exprStmt => true
  | _ => false

/-- Nodes that an execution may not come to. -/
inductive Junk (m : Node) : Prop
  | blank : Blank m → Junk m
  | none : m.kind = .none → Junk m
  | leaf : m.kind.injected = true → Junk m
  | hull {x : Node} : Steps.hull m.kind = true → x ∈ m.children → x.kind.injected = true → (∀ c e mid, look m ≠ .truth c e mid) → Junk m

theorem size_child {k : Kind} {sp : Span} {cs : List Node} {x : Node} (h : x ∈ cs) : sizeOf x < sizeOf (mk k sp cs) := by
  have := List.sizeOf_lt_of_mem h
  rw [Node.mk.sizeOf_spec]
  omega

/-- Nothing is below an injected leaf. -/
theorem leaf_each {x m : Node} (hi : x.kind.injected = true) (hx : Fit x) (hm : m ∈ each x) : Junk m := by
  cases x with
  | mk k sp cs =>
    rcases mem_each_mk.1 hm with rfl | ⟨y, hy, _⟩
    · exact .leaf hi
    · have := hx.leaf hi
      change cs = [] at this
      rw [this] at hy
      cases hy

theorem item_each {x m : Node} (hi : isInjectedItem x = true) (hx : ∀ y ∈ each x, Fit y) (hm : m ∈ each x) : Junk m := by
  unfold isInjectedItem at hi
  simp only [Bool.or_eq_true, decide_eq_true_eq] at hi
  rcases hi with (hi | hi) | hi
  · unfold isCounterStmt at hi
    split at hi
    · next sp c sp' cs =>
      rcases mem_each_mk.1 hm with rfl | ⟨y, hy, hm⟩
      · exact .hull (x := mk (.counter c) sp' cs) rfl (by simp [Node.children]) rfl (by intro c e mid h; cases h)
      · cases List.mem_singleton.1 hy
        exact leaf_each rfl (hx _ (mem_each_mk.2 (.inr ⟨_, by simp, each_self _⟩))) hm
    · cases hi
  · exact leaf_each (by rw [hi]; rfl) (hx x (each_self x)) hm
  · exact leaf_each (by rw [hi]; rfl) (hx x (each_self x)) hm

theorem none_each {x m : Node} (hi : x.isNone = true) (hm : m ∈ each x) : Junk m := by
  unfold Node.isNone at hi
  split at hi
  · rcases mem_each_mk.1 hm with rfl | ⟨y, hy, _⟩
    · exact .none rfl
    · cases hy
  · cases hi

theorem mapLast_concat (f : Node → Node) (l : List Node) (y : Node) : mapLast f (l ++ [y]) = l ++ [f y] := by
  induction l with
  | nil => rfl
  | cons z l ih =>
    rw [List.cons_append, mapLast, ih]
    · rfl
    · intro h
      simp at h

/-- Every child is a part, or an item of a part, or the value of an arrow function, or absent. -/
theorem kid_cover {k : Kind} {sp : Span} {cs : List Node} {x : Node} (hl : look (mk k sp cs) = .plain) (hx : x ∈ cs) :
    x ∈ kids (mk k sp cs) ∨ (∃ sp' ss, mk .block sp' ss ∈ kids (mk k sp cs) ∧ x ∈ ss) ∨
      mk .block Span.dummy [mk .returnStmt x.span [x]] ∈ kids (mk k sp cs) ∨ x.isNone = true := by
  have body : toBlock x ∈ kids (mk k sp cs) → x ∈ kids (mk k sp cs) ∨
      (∃ sp' ss, mk .block sp' ss ∈ kids (mk k sp cs) ∧ x ∈ ss) := by
    intro h
    by_cases hb : x.kind = .block
    · rw [toBlock, if_pos hb] at h
      exact .inl h
    · rw [toBlock, if_neg hb] at h
      exact .inr ⟨_, _, h, List.mem_singleton.2 rfl⟩
  have body' : toBlock x ∈ kids (mk k sp cs) → x ∈ kids (mk k sp cs) ∨
      (∃ sp' ss, mk .block sp' ss ∈ kids (mk k sp cs) ∧ x ∈ ss) ∨
      mk .block Span.dummy [mk .returnStmt x.span [x]] ∈ kids (mk k sp cs) ∨ x.isNone = true := by
    intro h
    rcases body h with h | h
    · exact .inl h
    · exact .inr (.inl h)
  cases k with
  | block => cases hl
  | module => cases hl
  | script => cases hl
  | switchCase =>
    match cs with
    | [] => cases hx
    | test :: ss =>
      rcases List.mem_cons.1 hx with rfl | hx
      · exact .inl (List.mem_cons_self ..)
      · exact .inr (.inl ⟨Span.dummy, ss, by simp [kids], hx⟩)
  | ifStmt =>
    match cs with
    | [] => cases hx
    | [_] => exact .inl hx
    | [_, _] => exact .inl hx
    | [test, cons, alt] =>
      simp only [List.mem_cons, List.not_mem_nil, or_false] at hx
      rcases hx with rfl | rfl | rfl
      · exact .inl (List.mem_cons_self ..)
      · exact body' (by simp [kids, tidyBodies, toBlock])
      · cases hi : x.isNone with
        | true => exact .inr (.inr (.inr rfl))
        | false => exact hi ▸ body' (by simp [kids, tidyBodies, toBlock, hi])
    | _ :: _ :: _ :: _ :: _ => exact .inl hx
  | loop lk =>
    rw [kids_loop] at body' ⊢
    rcases List.eq_nil_or_concat cs with rfl | ⟨l, y, rfl⟩
    · cases hx
    · rw [List.concat_eq_append] at hx body' ⊢
      rw [mapLast_concat] at body' ⊢
      rcases List.mem_append.1 hx with hx | hx
      · exact .inl (List.mem_append.2 (.inl hx))
      · cases List.mem_singleton.1 hx
        exact body' (by simp)
  | withStmt =>
    match cs with
    | [] => cases hx
    | [_] => exact .inl hx
    | [obj, b] =>
      simp only [List.mem_cons, List.not_mem_nil, or_false] at hx
      rcases hx with rfl | rfl
      · exact .inl (List.mem_cons_self ..)
      · exact body' (by simp [kids, tidyBodies, toBlock])
    | _ :: _ :: _ :: _ => exact .inl hx
  | arrow a =>
    match cs with
    | [] => cases hx
    | [_] => exact .inl hx
    | [params, b] =>
      simp only [List.mem_cons, List.not_mem_nil, or_false] at hx
      rcases hx with rfl | rfl
      · exact .inl (List.mem_cons_self ..)
      · by_cases hb : x.kind = .block
        · have : asArrowBody x = x := by
            cases x
            cases hb
            rfl
          exact .inl (by simp [kids, tidyBodies, this])
        · exact .inr (.inr (.inl (by simp [kids, tidyBodies, asArrowBody_of_ne hb])))
    | _ :: _ :: _ :: _ => exact .inl hx
  | _ => exact .inl hx

/-- An execution can come to everything else. -/
theorem each_sub (n : Node) (hn : ∀ m ∈ each n, Fit m) : ∀ m ∈ each n, Sub n m ∨ Junk m := by
  intro m hm
  cases n with
  | mk k sp cs =>
  rcases mem_each_mk.1 hm with rfl | ⟨x, hx, hm'⟩
  · exact .inl (.here _)
  · have below : ∀ y, sizeOf y < sizeOf (mk k sp cs) → (∀ z ∈ each y, z ∈ each (mk k sp cs)) → m ∈ each y → Sub y m ∨ Junk m :=
      fun y hs hy hmy => each_sub y (fun z hz => hn z (hy z hz)) m hmy
    have kid : Sub x m ∨ Junk m := below x (size_child hx) (fun z hz => mem_each_mk.2 (.inr ⟨x, hx, hz⟩)) hm'
    have fitx : ∀ y ∈ each x, Fit y := fun y hy => hn y (mem_each_mk.2 (.inr ⟨x, hx, hy⟩))
    -- what follows if `x` is an item of a list
    have item : ∀ l, Sub (mk k sp cs) l → ∀ ss, look l = .list ss → x ∈ ss → Sub (mk k sp cs) m ∨ Junk m := by
      intro l hl ss hls hxs
      cases hi : isInjectedItem x with
      | true => exact .inr (item_each hi fitx hm')
      | false =>
        rcases kid with h | h
        · exact .inl ((hl.comp (comps_list hls hxs hi)).trans h)
        · exact .inr h
    have part : x ∈ comps (mk k sp cs) → Sub (mk k sp cs) m ∨ Junk m := by
      intro hc
      rcases kid with h | h
      · exact .inl (.step hc h)
      · exact .inr h
    cases hl : look (mk k sp cs) with
    | counter c =>
      have h1 : k.injected = true := by
        unfold look at hl
        split at hl <;> first | cases hl | skip
        rename_i h
        cases h
        rfl
      have h2 := (hn _ (each_self _)).leaf h1
      change cs = [] at h2
      rw [h2] at hx
      cases hx
    | list ss =>
      have h1 : ss = cs := by
        unfold look at hl
        split at hl <;> first | (cases hl; done) | skip
        all_goals (rename_i h; cases h; cases hl; rfl)
      subst h1
      exact item _ (.here _) _ hl hx
    | wrap c e =>
      unfold look at hl
      split at hl <;> first | (cases hl; done) | skip
      rename_i sp0 sp1 c' sp2 cs' e' h
      cases h
      cases hl
      cases List.mem_singleton.1 hx
      rcases mem_each_mk.1 hm' with rfl | ⟨y, hy, hm2⟩
      · refine .inr (.hull (x := mk (.counter c) sp2 cs') rfl (by simp [Node.children]) rfl ?_)
        intro c0 e0 mid0 h
        have h1 := (hn _ (each_self _)).paren _ _ _ _ _ _ rfl
        unfold look at h
        split at h <;> first | (cases h; done) | skip
        rename_i h2
        cases h2
        cases h1
      · simp only [List.mem_cons, List.not_mem_nil, or_false] at hy
        rcases hy with rfl | rfl
        · exact .inr (leaf_each rfl (fitx _ (mem_each_mk.2 (.inr ⟨_, by simp, each_self _⟩))) hm2)
        · have hs : sizeOf y < sizeOf (mk .paren sp [mk .seq sp1 [mk (.counter c) sp2 cs', y]]) :=
            Nat.lt_trans (size_child (k := .seq) (sp := sp1) (cs := [mk (.counter c) sp2 cs', y]) (by simp)) (size_child (by simp))
          rcases below y hs (fun z hz => mem_each_mk.2 (.inr ⟨_, hx, mem_each_mk.2 (.inr ⟨y, by simp, hz⟩)⟩)) hm2 with h | h
          · exact .inl (.step (comps_wrap (c := c) rfl) h)
          · exact .inr h
    | truth c e mid =>
      unfold look at hl
      split at hl <;> first | (cases hl; done) | skip
      rename_i sp0 c' sp1 cs1 sp2 op sp3 sp4 cs2 e' mid' sp5 cs3 h
      cases h
      cases hl
      simp only [List.mem_cons, List.not_mem_nil, or_false] at hx
      rcases hx with rfl | rfl
      · exact .inr (leaf_each rfl (fitx _ (each_self _)) hm')
      · rcases mem_each_mk.1 hm' with rfl | ⟨y, hy, hm2⟩
        · refine .inr (.hull (x := mk (.temp false) sp5 cs3) rfl (by simp [Node.children]) rfl ?_)
          intro c0 e0 mid0 h
          cases h
        · simp only [List.mem_cons, List.not_mem_nil, or_false] at hy
          rcases hy with rfl | rfl | rfl
          · rcases mem_each_mk.1 hm2 with rfl | ⟨z, hz, hm3⟩
            · refine .inr (.hull (x := mk (.temp true) sp4 cs2) rfl (by simp [Node.children]) rfl ?_)
              intro c0 e0 mid0 h
              cases h
            · simp only [List.mem_cons, List.not_mem_nil, or_false] at hz
              rcases hz with rfl | rfl
              · exact .inr (leaf_each rfl (fitx _ (mem_each_mk.2 (.inr ⟨_, List.mem_cons_self ..,
                  mem_each_mk.2 (.inr ⟨_, List.mem_cons_self .., each_self _⟩)⟩))) hm3)
              · have hs : sizeOf z < sizeOf (mk .seq sp [mk (.counter c) sp1 cs1, mk .seq sp2 [mk (.assign op) sp3
                    [mk (.temp true) sp4 cs2, z], mid, mk (.temp false) sp5 cs3]]) :=
                  Nat.lt_trans (size_child (k := .assign op) (sp := sp3) (cs := [mk (.temp true) sp4 cs2, z]) (by simp))
                    (Nat.lt_trans (size_child (k := .seq) (sp := sp2)
                      (cs := [mk (.assign op) sp3 [mk (.temp true) sp4 cs2, z], mid, mk (.temp false) sp5 cs3])
                      (List.mem_cons_self ..)) (size_child (List.mem_cons_of_mem _ (List.mem_cons_self ..))))
                rcases below z hs (fun w hw => mem_each_mk.2 (.inr ⟨_, List.mem_cons_of_mem _ (List.mem_cons_self ..),
                    mem_each_mk.2 (.inr ⟨_, List.mem_cons_self ..,
                    mem_each_mk.2 (.inr ⟨z, by simp, hw⟩)⟩)⟩)) hm3 with h | h
                · exact .inl (.step (comps_truth (c := c) (mid := mid) rfl) h)
                · exact .inr h
          · exact .inr (.blank fun w hw => (fitx _ (each_self _)).mid _ _ _ _ _ _ _ _ _ rfl w (each_trans hm2 hw))
          · exact .inr (leaf_each rfl (fitx _ (mem_each_mk.2 (.inr ⟨_, by simp, each_self _⟩))) hm2)
    | plain =>
      have hc := comps_plain hl
      rcases kid_cover hl hx with h | ⟨sp', ss, h1, h2⟩ | h | h
      · exact part (by rw [hc]; exact h)
      · exact item _ (.step (by rw [hc]; exact h1) (.here _)) _ rfl h2
      · rcases kid with h' | h'
        · refine .inl (.step (by rw [hc]; exact h) (.step (comps_list (ss := [mk .returnStmt x.span [x]]) rfl
            (List.mem_singleton.2 rfl) rfl) (.step (x := x) ?_ h')))
          rw [comps_plain rfl]
          exact List.mem_singleton.2 rfl
        · exact .inr h'
      · exact .inr (none_each h hm')
termination_by sizeOf n

end Steps
end Verif
