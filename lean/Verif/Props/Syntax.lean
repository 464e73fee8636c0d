import Verif.Spec.Syntax
import Verif.Lemmas.Js
import Verif.Props.Truth
/-
The trees that the visitor inserts are the expressions whose evaluation C33 is about.
-/
namespace Verif
open Node Js

section
variable {cov tmp : String} {code : Node → Option Nat}

theorem append_cancel {a b c : String} (h : a ++ b = a ++ c) : b = c := by
  have := congrArg String.toList h
  simp only [String.toList_append] at this
  exact String.toList_inj.1 (List.append_cancel_left this)

theorem num_ne {s : String} {n : Nat} (h : s = "Num " ++ toString n) : "Num ".toList.isPrefixOf s.toList = true := by
  rw [h, String.toList_append]
  exact List.isPrefixOf_iff_prefix.2 (List.prefix_append _ _)

set_option maxRecDepth 4000 in
/-- A tree is the syntax of one expression only. -/
theorem SyntaxOf.unique {n : Node} {e e' : Expr} (h : SyntaxOf cov tmp code n e) (h' : SyntaxOf cov tmp code n e') : e = e' := by
  refine SyntaxOf.rec (cov := cov) (tmp := tmp) (code := code) (motive_1 := fun n e _ => ∀ e', SyntaxOf cov tmp code n e' → e = e')
    (motive_2 := fun ns es _ => ∀ es', SyntaxOfAll cov tmp code ns es' → es = es')
    (motive_3 := fun ns es _ => ∀ es', SyntaxOfArgs cov tmp code ns es' → es = es')
    ?_ ?_ ?_ ?_ ?_ ?_ ?_ ?_ ?_ ?_ ?_ ?_ ?_ ?_ ?_ ?_ ?_ ?_ ?_ ?_ ?_ ?_ h e' h'
  · intro n id hf hc e' h'
    cases h' <;> simp_all [foreign]
  · intro x sp e' h'
    cases h' <;> simp_all [foreign]
  · intro s sp n hs e' h'
    have hp := num_ne hs
    cases h' with
    | user hf h =>
      unfold foreign at hf
      simp only [hp, Bool.not_true, Bool.and_false] at hf
      cases hf
    | num hs' => rw [toString_inj (append_cancel (hs.symm.trans hs'))]
    | null hs' => rw [hs'] at hp; exact absurd hp (by decide)
  · intro s sp hs e' h'
    cases h' with
    | user hf h => simp [foreign, hs] at hf
    | num hs' => have hp := num_ne hs'; rw [hs] at hp; exact absurd hp (by decide)
    | null hs' => rfl
  · intro s sp lp f as e es hs hf ha ih1 ih2 e' h'
    cases h' with
    | user hf h => simp [foreign, hs] at hf
    | call hs' hf' ha' => rw [ih1 _ hf', ih2 _ ha']
  · intro s t sp np o e f hs ht ho ih e' h'
    cases h' with
    | user hf h => simp [foreign, hs] at hf
    | member hs' ht' ho' => rw [ih _ ho', append_cancel (ht.symm.trans ht')]
  · intro s t sp np o i e j hs ht ho hi ih1 ih2 e' h'
    cases h' with
    | user hf h => simp [foreign, hs] at hf
    | index hs' ht' ho' hi' => rw [ih1 _ ho', ih2 _ hi']
  · intro s sp n e hs hn ih e' h'
    cases h' with
    | user hf h => simp [foreign, hs] at hf
    | incr hs' hn' => rw [ih _ hn']
    | not hs' hn' => simp [hs] at hs'
  · intro s sp n e hs hn ih e' h'
    cases h' with
    | user hf h => simp [foreign, hs] at hf
    | incr hs' hn' => simp [hs] at hs'
    | not hs' hn' => rw [ih _ hn']
  · intro sp l r a b hl hr ih1 ih2 e' h'
    cases h' with
    | user hf h => simp [foreign] at hf
    | and hl' hr' => rw [ih1 _ hl', ih2 _ hr']
  · intro sp l r a b hl hr ih1 ih2 e' h'
    cases h' with
    | user hf h => simp [foreign] at hf
    | or hl' hr' => rw [ih1 _ hl', ih2 _ hr']
  · intro s sp l r a b hs hl hr ih1 ih2 e' h'
    cases h' with
    | user hf h => simp [foreign] at hf
    | ne hs' hl' hr' => rw [ih1 _ hl', ih2 _ hr']
  · intro sp t c a x y z ht hc ha ih1 ih2 ih3 e' h'
    cases h' with
    | user hf h => simp [foreign] at hf
    | cond ht' hc' ha' => rw [ih1 _ ht', ih2 _ hc', ih3 _ ha']
  · intro s sp l r a b hs hl hr ih1 ih2 e' h'
    cases h' with
    | user hf h => simp [foreign] at hf
    | assign hs' hl' hr' => rw [ih1 _ hl', ih2 _ hr']
  · intro sp n e hn ih e' h'
    cases h' with
    | user hf h => simp [foreign] at hf
    | paren hn' => rw [ih _ hn']
  · intro sp ns es hn ih e' h'
    cases h' with
    | user hf h => simp [foreign] at hf
    | seq hn' => rw [ih _ hn']
  · intro c sp e h ih e' h'
    cases h' with
    | user hf h => simp [foreign] at hf
    | counter h' => exact ih _ h'
  · intro t sp e' h'
    cases h' with
    | user hf h => simp [foreign] at hf
    | temp => rfl
  · intro es' h'
    cases h'
    rfl
  · intro n ns e es h t ih1 ih2 es' h'
    cases h' with
    | cons h' t' => rw [ih1 _ h', ih2 _ t']
  · intro es' h'
    cases h'
    rfl
  · intro s sp n ns e es hs h t ih1 ih2 es' h'
    cases h' with
    | cons hs' h' t' => rw [ih1 _ h', ih2 _ t']

theorem syntax_counterTree (c : Counter) : SyntaxOf cov tmp code (counterTree cov c) (Template.counter cov c) := by
  cases c <;> refine .incr rfl ?_
  · exact .index rfl rfl (.member rfl (by decide) (.call rfl .ident .nil)) (.num rfl)
  · exact .index rfl rfl (.member rfl (by decide) (.call rfl .ident .nil)) (.num rfl)
  · exact .index rfl rfl (.index rfl rfl (.member rfl (by decide) (.call rfl .ident .nil)) (.num rfl)) (.num rfl)
  · exact .index rfl rfl (.index rfl rfl (.member rfl (by decide) (.call rfl .ident .nil)) (.num rfl)) (.num rfl)

theorem syntax_validate : SyntaxOf cov tmp code validateTrue (Template.validate cov tmp) := by
  refine .and .temp (.and (.paren (.or (.not rfl (.call rfl (.member rfl (by decide) .ident) ?_)) (.member rfl (by decide) .temp)))
    (.paren (.or (.ne rfl (.call rfl (.member rfl (by decide) .ident) ?_) (.member rfl (by decide) .ident))
      (.member rfl (by decide) (.call rfl (.member rfl (by decide) .ident) ?_)))))
  all_goals exact .cons rfl .temp .nil

theorem syntax_increaseTrue {n : Node} {e : Expr} (b a : Nat) (h : SyntaxOf cov tmp code n e) :
    SyntaxOf cov tmp code (increaseTrue b a n) (Template.truthWrapper cov tmp b a e) :=
  .seq (.cons (.assign rfl .temp h) (.cons (.paren (.cond syntax_validate (.counter (syntax_counterTree _)) (.null rfl)))
    (.cons .temp .nil)))

/-- C33, about the code that is inserted: the tree of a counter is the syntax of the increment that C33 is about, and of no other
expression. -/
theorem C33_counter_tree (c : Counter) (e : Expr) :
    (SyntaxOf cov tmp code (counterTree cov c) e ↔ e = Template.counter cov c) ∧
    (SyntaxOf cov tmp code (counterExpr c) e ↔ e = Template.counter cov c) := by
  have h := syntax_counterTree (cov := cov) (tmp := tmp) (code := code) c
  exact ⟨⟨fun k => k.unique h, fun k => k ▸ h⟩, ⟨fun k => k.unique (.counter h), fun k => k ▸ .counter h⟩⟩

/-- C33, about the code that is inserted: an operand of a logical expression becomes its arm's counter followed by the wrapper that C33 is
about, with the operand in it once. -/
theorem C33_wrapper_tree (b a : Nat) (n : Node) (e : Expr) : SyntaxOf cov tmp code (wrapTruth b a n) e ↔
    ∃ o, SyntaxOf cov tmp code n o ∧ e = .seq (.ofList [Template.counter cov (.b b a), Template.truthWrapper cov tmp b a o]) := by
  constructor
  · intro h
    cases h with
    | user hf h => simp [foreign, wrapTruth] at hf
    | seq hn =>
      obtain ⟨o, ho⟩ : ∃ o, SyntaxOf cov tmp code n o := by
        cases hn with
        | cons h1 t =>
          cases t with
          | cons h2 t =>
            cases h2 with
            | user hf h => simp [foreign, increaseTrue] at hf
            | seq hn =>
              cases hn with
              | cons h3 t =>
                cases h3 with
                | user hf h => simp [foreign] at hf
                | assign _ _ hr => exact ⟨_, hr⟩
      exact ⟨o, ho, (SyntaxOf.seq (sp := Span.dummy) hn).unique (.seq (.cons (.counter (syntax_counterTree _)) (.cons (syntax_increaseTrue b a ho) .nil)))⟩
  · rintro ⟨o, ho, rfl⟩
    exact .seq (.cons (.counter (syntax_counterTree _)) (.cons (syntax_increaseTrue b a ho) .nil))

/-- C33, about the code that is inserted: other arms become their counter followed by themselves. -/
theorem C33_arm_tree (c : Counter) (n : Node) (e : Expr) : SyntaxOf cov tmp code (wrapCounter c n) e ↔
    ∃ o, SyntaxOf cov tmp code n o ∧ e = .paren (.seq (.ofList [Template.counter cov c, o])) := by
  constructor
  · intro h
    cases h with
    | user hf h => simp [foreign, wrapCounter] at hf
    | paren hn =>
      cases hn with
      | user hf h => simp [foreign] at hf
      | seq hn =>
        cases hn with
        | cons h1 t =>
          cases t with
          | cons h2 t =>
            cases t
            exact ⟨_, h2, by rw [((C33_counter_tree c _).2.1 h1)]; rfl⟩
  · rintro ⟨o, ho, rfl⟩
    exact .paren (.seq (.cons (.counter (syntax_counterTree _)) (.cons ho .nil)))

/-- C33, about the test for inserted code: on the trees of counters it answers as on the nodes that stand for them, that is, it finds those of
statements and functions; and it finds nothing in code that does not mention the coverage function. -/
theorem C33_injected_trees :
    (∀ c, isInjectedTree cov (counterTree cov c) = isInjectedExpr (counterExpr c)) ∧
    (∀ c, isInjectedTree cov (counterTree cov c) = true ↔ (∃ id, c = .s id) ∨ ∃ id, c = .f id) ∧
    ∀ n : Node, n.any (· = .ident cov) = false → isInjectedTree cov n = false := by
  have h1 : ∀ c, isInjectedTree cov (counterTree cov c) = isInjectedExpr (counterExpr c) := by
    intro c
    cases c <;> simp [isInjectedTree, counterTree, isInjectedExpr, counterExpr]
  refine ⟨h1, fun c => ?_, fun n hn => ?_⟩
  · rw [h1]
    cases c <;> simp [isInjectedExpr, counterExpr]
  · unfold isInjectedTree
    split
    · simp [any, anyList] at hn
      simp [hn]
    · rfl
end

/-- The operand `f()` of a truthiness wrapper, as the first piece of user code. (`f()` alone denotes a call; a node of another kind, such as an
`await` expression, is opaque.) -/
example : SyntaxOf "cov_1" "cov_1_temp" (fun n => if n.kind = .other .expr "Await" then some 0 else none)
    (wrapTruth 3 1 (mk (.other .expr "Await") ⟨5, 6⟩ [])) (.seq (.ofList
      [Template.counter "cov_1" (.b 3 1), Template.truthWrapper "cov_1" "cov_1_temp" 3 1 (.extern 0)])) :=
  (C33_wrapper_tree _ _ _ _).2 ⟨_, .user (by decide) rfl, rfl⟩

/-- `cov_1().s[7]++` in user code would be taken for a counter, `cov_2().s[7]++` is not. -/
example : isInjectedTree "cov_1" (counterTree "cov_1" (.s 7)) = true ∧ isInjectedTree "cov_1" (counterTree "cov_2" (.s 7)) = false ∧
    isInjectedTree "cov_1" (counterTree "cov_1" (.b 7 0)) = false := by decide +kernel

end Verif
