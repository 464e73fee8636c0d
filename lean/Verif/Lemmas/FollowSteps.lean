import Verif.Lemmas.FollowSite
import Verif.Lemmas.Outcome
import Mathlib.Data.List.Forall2
/-
What steps do to tags, and what the injected nodes look like.
-/
namespace Verif
open Node Sem

namespace Steps
variable {cx : Ctx}

/-- A property of all nodes of a tree that is kept at the root and holds for everything added is kept. -/
theorem each_all {P : Node → Prop}
    (hroot : ∀ {n q h n' q' h' o}, Steps cx n q h n' q' h' o → P n → P n')
    (hc : ∀ c, ∀ m ∈ each (counterStmt c), P m)
    (hw : ∀ c e k sp l r, k.wraps = true → P (mk k sp (l ++ e :: r)) → (∀ m ∈ each e, P m) →
      ∀ m ∈ each (wrapCounter c e), P m)
    (ht : ∀ b a e, (∀ m ∈ each e, P m) → ∀ m ∈ each (wrapTruth b a e), P m)
    (hb : ∀ ss, P (mk .block Span.dummy ss)) (hr : ∀ e, P e → P (mk .returnStmt e.span [e]))
    {n q h n' q' h' o} (s : Steps cx n q h n' q' h' o) (hn : ∀ m ∈ each n, P m) : ∀ m ∈ each n', P m := by
  have key : ∀ {k sp} {cs cs' : List Node}, P (mk k sp cs') → (∀ m ∈ each (mk k sp cs), P m) →
      (∀ x ∈ cs', x ∈ cs ∨ ∀ m ∈ each x, P m) → ∀ m ∈ each (mk k sp cs'), P m := by
    intro k sp cs cs' h1 h2 h3 m hm
    rcases mem_each_mk.1 hm with rfl | ⟨x, hx, hm⟩
    · exact h1
    · rcases h3 x hx with h | h
      · exact h2 m (mem_each_mk.2 (.inr ⟨x, h, hm⟩))
      · exact h m hm
  have kid : ∀ {k sp} {cs : List Node} {x : Node}, (∀ m ∈ each (mk k sp cs), P m) → x ∈ cs → ∀ m ∈ each x, P m :=
    fun h hx m hm => h m (mem_each_mk.2 (.inr ⟨_, hx, hm⟩))
  induction s with
  | refl => exact hn
  | trans _ _ ih1 ih2 => exact ih2 (ih1 hn)
  | @child c q h c' q' h' o k sp l r hcar st ih =>
    refine key (cs := l ++ c :: r) (hroot (.child k sp l r hcar st) (hn _ (each_self _))) hn ?_
    intro x hx
    rcases List.mem_append.1 hx with hx | hx
    · exact .inl (by simp [hx])
    · rcases List.mem_cons.1 hx with rfl | hx
      · exact .inr (ih (kid hn (by simp)))
      · exact .inl (by simp [hx])
  | @insert s q h s' q' h' o k sp l r hk st ih =>
    refine key (cs := l ++ s :: r) (hroot (.insert k sp l r hk st) (hn _ (each_self _))) hn ?_
    intro x hx
    simp only [List.mem_append, List.mem_cons] at hx
    rcases hx with (hx | hx) | rfl | hx
    · exact .inl (by simp [hx])
    · obtain ⟨c, rfl⟩ := st.out_counters x hx
      exact .inr (hc c)
    · exact .inr (ih (kid hn (by simp)))
    · exact .inl (by simp [hx])
  | @lose c q h c' q' h' o sp l r st ih =>
    refine key (cs := l ++ c :: r) (hroot (.lose sp l r st) (hn _ (each_self _))) hn ?_
    intro x hx
    rcases List.mem_append.1 hx with hx | hx
    · exact .inl (by simp [hx])
    · rcases List.mem_cons.1 hx with rfl | hx
      · exact .inr (ih (kid hn (by simp)))
      · exact .inl (by simp [hx])
  | register => exact hn
  | emit => exact hn
  | headBlock sp ss q1 c q2 h =>
    refine key (cs := ss) (hroot (.headBlock sp ss q1 c q2 h) (hn _ (each_self _))) hn ?_
    intro x hx
    rcases List.mem_cons.1 hx with rfl | hx
    · exact .inr (hc c)
    · exact .inl hx
  | headCase sp test ss q1 c q2 h =>
    refine key (cs := test :: ss) (hroot (.headCase sp test ss q1 c q2 h) (hn _ (each_self _))) hn ?_
    intro x hx
    simp only [List.mem_cons] at hx
    rcases hx with rfl | rfl | hx
    · exact .inl (by simp)
    · exact .inr (hc c)
    · exact .inl (by simp [hx])
  | wrap k sp l e r q1 c q2 h hk hi =>
    refine key (cs := l ++ e :: r) (hroot (.wrap k sp l e r q1 c q2 h hk hi) (hn _ (each_self _))) hn ?_
    intro x hx
    rcases List.mem_append.1 hx with hx | hx
    · exact .inl (by simp [hx])
    · rcases List.mem_cons.1 hx with rfl | hx
      · exact .inr (hw c e k sp l r hk (hn _ (each_self _)) (kid hn (by simp)))
      · exact .inl (by simp [hx])
  | truth k sp l e r q1 b a q2 h hk hi hr hlb =>
    refine key (cs := l ++ e :: r) (hroot (.truth k sp l e r q1 b a q2 h hk hi hr hlb) (hn _ (each_self _))) hn ?_
    intro x hx
    rcases List.mem_append.1 hx with hx | hx
    · exact .inl (by simp [hx])
    · rcases List.mem_cons.1 hx with rfl | hx
      · exact .inr (ht b a e (kid hn (by simp)))
      · exact .inl (by simp [hx])
  | body k sp l s r q h h1 h2 h3 =>
    refine key (cs := l ++ s :: r) (hroot (.body k sp l s r q h h1 h2 h3) (hn _ (each_self _))) hn ?_
    intro x hx
    rcases List.mem_append.1 hx with hx | hx
    · exact .inl (by simp [hx])
    · rcases List.mem_cons.1 hx with rfl | hx
      · refine .inr fun m hm => ?_
        rcases mem_each_mk.1 hm with rfl | ⟨y, hy, hm⟩
        · exact hb _
        · cases List.mem_singleton.1 hy
          exact kid hn (by simp) m hm
      · exact .inl (by simp [hx])
  | addElse sp test cons alt q h h1 =>
    refine key (cs := [test, cons, alt]) (hroot (.addElse sp test cons alt q h h1) (hn _ (each_self _))) hn ?_
    intro x hx
    simp only [List.mem_cons, List.not_mem_nil, or_false] at hx
    rcases hx with rfl | rfl | rfl
    · exact .inl (by simp)
    · exact .inl (by simp)
    · refine .inr fun m hm => ?_
      rcases mem_each_mk.1 hm with rfl | ⟨y, hy, hm⟩
      · exact hb _
      · cases hy
  | arrow a sp params e q h h1 =>
    refine key (cs := [params, e]) (hroot (.arrow a sp params e q h h1) (hn _ (each_self _))) hn ?_
    intro x hx
    simp only [List.mem_cons, List.not_mem_nil, or_false] at hx
    rcases hx with rfl | rfl
    · exact .inl (by simp)
    · refine .inr fun m hm => ?_
      have he : ∀ m ∈ each e, P m := kid hn (by simp)
      rcases mem_each_mk.1 hm with rfl | ⟨y, hy, hm⟩
      · exact hb _
      · cases List.mem_singleton.1 hy
        rcases mem_each_mk.1 hm with rfl | ⟨y, hy, hm⟩
        · exact hr e (he e (each_self e))
        · cases List.mem_singleton.1 hy
          exact he m hm

/-- Kinds below which steps only happen inside the children. -/
def inert : Kind → Bool
  | .seq | .assign _ | .paren | .counter _ | .temp _ | .covDecl | .covCall => true
  | _ => false

/-- Steps lead from one tree to the other. -/
def Step (cx : Ctx) (n n' : Node) : Prop := ∃ q h q' h' o, Steps cx n q h n' q' h' o

/-- Reflexive and transitive closure of `Step`. -/
inductive Way (cx : Ctx) : Node → Node → Prop
  | refl (n) : Way cx n n
  | step {a b c} : Way cx a b → Step cx b c → Way cx a c

theorem Way.trans {a b c : Node} (h : Way cx a b) (h' : Way cx b c) : Way cx a c := by
  induction h' with
  | refl => exact h
  | step _ hl ih => exact .step ih hl

theorem Way.root {a b : Node} (h : Way cx a b) : b.kind = a.kind ∧ b.span = a.span := by
  induction h with
  | refl => exact ⟨rfl, rfl⟩
  | step _ hl ih =>
    obtain ⟨_, _, _, _, _, s⟩ := hl
    exact ⟨s.root.1.trans ih.1, s.root.2.trans ih.2⟩

theorem ways_refl (cs : List Node) : List.Forall₂ (Way cx) cs cs := by
  induction cs with
  | nil => exact .nil
  | cons c cs ih => exact .cons (.refl c) ih

theorem ways_trans {a b c : List Node} (h : List.Forall₂ (Way cx) a b) (h' : List.Forall₂ (Way cx) b c) :
    List.Forall₂ (Way cx) a c := by
  induction h generalizing c with
  | nil => exact h'
  | cons h1 _ ih =>
    cases h' with
    | cons h2 h3 => exact .cons (h1.trans h2) (ih h3)

theorem ways_one {l r : List Node} {c c' : Node} (h : Way cx c c') :
    List.Forall₂ (Way cx) (l ++ c :: r) (l ++ c' :: r) := by
  induction l with
  | nil => exact .cons h (ways_refl r)
  | cons x l ih => exact .cons (.refl x) ih

theorem inert_children {n q h n' q' h' o} (s : Steps cx n q h n' q' h' o) (hk : inert n.kind = true) :
    List.Forall₂ (Way cx) n.children n'.children := by
  induction s with
  | refl => exact ways_refl _
  | trans s1 s2 ih1 ih2 => exact ways_trans (ih1 hk) (ih2 (by rw [s1.root.1]; exact hk))
  | child k sp l r _ st => exact ways_one (.step (.refl _) ⟨_, _, _, _, _, st⟩)
  | insert k sp l r h1 _ => cases k <;> first | (cases hk; done) | (cases h1; done)
  | lose => cases hk
  | register => exact ways_refl _
  | emit => exact ways_refl _
  | headBlock => cases hk
  | headCase => cases hk
  | wrap k sp l e r q1 c q2 h h1 => cases k <;> first | (cases hk; done) | (cases h1; done)
  | truth k sp l e r q1 b a q2 h h1 => cases k <;> first | (cases hk; done) | (cases h1; done)
  | body k sp l s r q h h1 => cases k <;> first | (cases hk; done) | (simp [Kind.bodyPos] at h1; done)
  | addElse => cases hk
  | arrow => cases hk

/-- All spans are those of injected nodes. -/
def Blank (n : Node) : Prop := ∀ m ∈ each n, m.span = Span.dummy

/-- `temp = e, mid, temp` -/
def inner : Node → Bool
  | mk .seq _ [mk (.assign _) _ [mk (.temp true) _ _, _], _, mk (.temp false) _ _] => true
  | _ => false

/-- Injected leaves are leaves, what is between the assignment and the use of the temporary is injected, and these stand only in
truthiness wrappers. -/
structure Fit (m : Node) : Prop where
  leaf : m.kind.injected = true → m.children = []
  mid : ∀ sp op sp1 sp2 cs e mid sp3 cs', m = mk .seq sp [mk (.assign op) sp1 [mk (.temp true) sp2 cs, e], mid,
    mk (.temp false) sp3 cs'] → Blank mid
  wrap : m.kind.wraps = true → ∀ x ∈ m.children, inner x = false
  paren : ∀ sp sp1 c sp2 cs e, m = mk .paren sp [mk .seq sp1 [mk (.counter c) sp2 cs, e]] → inner e = false

theorem Fit.trivial {n : Node} (h1 : n.kind ≠ .seq) (h2 : n.kind.injected = false) (h3 : n.kind.wraps = false)
    (h4 : n.kind ≠ .paren) : Fit n :=
  ⟨fun h => (by rw [h2] at h; cases h), fun sp op sp1 sp2 cs e mid sp3 cs' h => (h1 (by rw [h]; rfl)).elim,
    fun h => (by rw [h3] at h; cases h), fun _ _ _ _ _ _ h => (h4 (by rw [h]; rfl)).elim⟩

theorem each_counter {c : Counter} {m : Node} (h : m ∈ each (counterExpr c)) : m = counterExpr c := by
  rcases mem_each_mk.1 h with rfl | ⟨x, hx, _⟩
  · rfl
  · cases hx

theorem each_stmt {c : Counter} {m : Node} (h : m ∈ each (counterStmt c)) : m = counterStmt c ∨ m = counterExpr c := by
  rcases mem_each_mk.1 h with rfl | ⟨x, hx, hm⟩
  · exact .inl rfl
  · cases List.mem_singleton.1 hx
    exact .inr (each_counter hm)

/-- What a property needs for the injected nodes. -/
theorem each_wrap_cases {P : Node → Prop} {c : Counter} {e : Node} (h1 : P (wrapCounter c e))
    (h2 : P (mk .seq Span.dummy [counterExpr c, e])) (h3 : P (counterExpr c)) (he : ∀ m ∈ each e, P m) :
    ∀ m ∈ each (wrapCounter c e), P m := by
  intro m hm
  rcases mem_each_mk.1 hm with rfl | ⟨x, hx, hm⟩
  · exact h1
  · cases List.mem_singleton.1 hx
    rcases mem_each_mk.1 hm with rfl | ⟨y, hy, hm'⟩
    · exact h2
    · simp only [List.mem_cons, List.not_mem_nil, or_false] at hy
      rcases hy with rfl | rfl
      · cases each_counter hm'
        exact h3
      · exact he m hm'

theorem each_truth_cases {P : Node → Prop} {b a : Nat} {e : Node} (h1 : P (wrapTruth b a e))
    (h2 : P (counterExpr (.b b a))) (h3 : P (increaseTrue b a e)) (h4 : P (mk (.assign "=") Span.dummy [tempTarget, e]))
    (h5 : ∀ m ∈ each tempTarget, P m) (h6 : ∀ m ∈ each (mk .paren Span.dummy [truthCond b a]), P m)
    (h7 : ∀ m ∈ each tempExpr, P m) (he : ∀ m ∈ each e, P m) :
    ∀ m ∈ each (wrapTruth b a e), P m := by
  intro m hm
  rcases mem_each_mk.1 hm with rfl | ⟨x, hx, hm⟩
  · exact h1
  · simp only [List.mem_cons, List.not_mem_nil, or_false] at hx
    rcases hx with rfl | rfl
    · cases each_counter hm
      exact h2
    · rcases mem_each_mk.1 hm with rfl | ⟨x, hx, hm⟩
      · exact h3
      · simp only [List.mem_cons, List.not_mem_nil, or_false] at hx
        rcases hx with rfl | rfl | rfl
        · rcases mem_each_mk.1 hm with rfl | ⟨x, hx, hm'⟩
          · exact h4
          · simp only [List.mem_cons, List.not_mem_nil, or_false] at hx
            rcases hx with rfl | rfl
            · exact h5 m hm'
            · exact he m hm'
        · exact h6 m hm
        · exact h7 m hm

theorem blank_spans {n : Node} : Blank n ↔ ∀ s ∈ n.spans, s = Span.dummy := by
  induction n using Node.ind with
  | h k sp cs ih =>
    have hl : ∀ l : List Node, (∀ c ∈ l, c ∈ cs) → ((∀ s ∈ spansList l, s = Span.dummy) ↔ ∀ c ∈ l, Blank c) := by
      intro l hl
      induction l with
      | nil => simp [spansList]
      | cons c l ihl =>
        have h1 := ih c (hl c (by simp))
        have h2 := ihl fun x hx => hl x (by simp [hx])
        simp only [spansList, List.mem_append, or_imp, forall_and, h2, ← h1, List.mem_cons, forall_eq]
    have h1 := hl cs fun c hc => hc
    unfold Node.spans
    simp only [List.mem_cons, or_imp, forall_and, forall_eq, h1]
    unfold Blank
    constructor
    · intro h
      exact ⟨h _ (each_self _), fun c hc m hm => h m (mem_each_mk.2 (.inr ⟨c, hc, hm⟩))⟩
    · rintro ⟨h2, h3⟩ m hm
      rcases mem_each_mk.1 hm with rfl | ⟨c, hc, hm⟩
      · exact h2
      · exact h3 c hc m hm

theorem each_mid {P : Node → Prop} {b a : Nat} (h1 : P (mk .paren Span.dummy [truthCond b a])) (h2 : P (truthCond b a))
    (h3 : ∀ m ∈ each validateTrue, P m) (h4 : P (counterExpr (.bT b a))) (h5 : P (mk (.other .expr "Null") Span.dummy [])) :
    ∀ m ∈ each (mk .paren Span.dummy [truthCond b a]), P m := by
  intro m hm
  rcases mem_each_mk.1 hm with rfl | ⟨x, hx, hm⟩
  · exact h1
  · cases List.mem_singleton.1 hx
    rcases mem_each_mk.1 hm with rfl | ⟨y, hy, hm'⟩
    · exact h2
    · simp only [List.mem_cons, List.not_mem_nil, or_false] at hy
      rcases hy with rfl | rfl | rfl
      · exact h3 m hm'
      · cases each_counter hm'
        exact h4
      · rcases mem_each_mk.1 hm' with rfl | ⟨z, hz, _⟩
        · exact h5
        · cases hz

theorem blank_mid (b a : Nat) : Blank (mk .paren Span.dummy [truthCond b a]) :=
  each_mid rfl rfl (blank_spans.2 (by decide)) rfl rfl

/-- Steps add only injected spans. -/
theorem blank_keep {n q h n' q' h' o} (s : Steps cx n q h n' q' h' o) (hn : Blank n) : Blank n' := by
  refine s.each_all (P := fun m => m.span = Span.dummy) (fun s h => s.root.2.trans h) ?_ ?_ ?_ (fun _ => rfl)
    (fun e he => he) hn
  · intro c m hm
    rcases each_stmt hm with rfl | rfl <;> rfl
  · exact fun c e _ _ _ _ _ _ he => each_wrap_cases rfl rfl rfl he
  · intro b a e he
    refine each_truth_cases rfl rfl rfl rfl ?_ (blank_mid b a) ?_ he
    · exact blank_spans.2 (by decide)
    · exact blank_spans.2 (by decide)

theorem Way.blank {a b : Node} (h : Way cx a b) (ha : Blank a) : Blank b := by
  induction h with
  | refl => exact ha
  | step _ hl ih =>
    obtain ⟨_, _, _, _, _, s⟩ := hl
    exact s.blank_keep ih

theorem Way.inert {a b : Node} (h : Way cx a b) (hk : Steps.inert a.kind = true) :
    List.Forall₂ (Way cx) a.children b.children := by
  induction h with
  | refl => exact ways_refl _
  | @step b c hw hl ih =>
    obtain ⟨_, _, _, _, _, s⟩ := hl
    exact ways_trans ih (s.inert_children (by rw [hw.root.1]; exact hk))

theorem inner_inv {x : Node} (h : inner x = true) : ∃ sp op sp1 sp2 cs e mid sp3 cs',
    x = mk .seq sp [mk (.assign op) sp1 [mk (.temp true) sp2 cs, e], mid, mk (.temp false) sp3 cs'] := by
  unfold inner at h
  split at h
  · exact ⟨_, _, _, _, _, _, _, _, _, rfl⟩
  · cases h

/-- An inner sequence comes from an inner sequence. -/
theorem Way.inner_back {n : Node} {sp : Span} {op : String} {sp1 sp2 : Span} {cs : List Node} {e mid : Node} {sp3 : Span}
    {cs' : List Node} (w : Way cx n (mk .seq sp [mk (.assign op) sp1 [mk (.temp true) sp2 cs, e], mid,
      mk (.temp false) sp3 cs'])) :
    ∃ sp op sp1 sp2 cs e mid0 sp3 cs', n = mk .seq sp [mk (.assign op) sp1 [mk (.temp true) sp2 cs, e], mid0,
      mk (.temp false) sp3 cs'] ∧ Way cx mid0 mid := by
  obtain ⟨k, nsp, ncs⟩ := n
  have hk : k = .seq := w.root.1.symm
  subst hk
  have h1 := w.inert rfl
  change List.Forall₂ (Way cx) ncs _ at h1
  obtain ⟨x, _, wx, h3, rfl⟩ := List.forall₂_cons_right_iff.1 h1
  obtain ⟨y, _, wy, h4, rfl⟩ := List.forall₂_cons_right_iff.1 h3
  obtain ⟨z, _, wz, h5, rfl⟩ := List.forall₂_cons_right_iff.1 h4
  cases h5
  obtain ⟨kx, spx, csx⟩ := x
  have hk : kx = .assign op := wx.root.1.symm
  subst hk
  have h2 := wx.inert rfl
  change List.Forall₂ (Way cx) csx _ at h2
  obtain ⟨x1, _, wx1, h6, rfl⟩ := List.forall₂_cons_right_iff.1 h2
  obtain ⟨x2, _, wx2, h7, rfl⟩ := List.forall₂_cons_right_iff.1 h6
  cases h7
  obtain ⟨k1, s1, c1⟩ := x1
  have hk : k1 = .temp true := wx1.root.1.symm
  subst hk
  obtain ⟨k2, s2, c2⟩ := z
  have hk : k2 = .temp false := wz.root.1.symm
  subst hk
  exact ⟨_, _, _, _, _, _, _, _, _, rfl, wy⟩

theorem Way.inner {a b : Node} (w : Way cx a b) (h : Steps.inner b = true) : Steps.inner a = true := by
  obtain ⟨_, _, _, _, _, _, _, _, _, rfl⟩ := inner_inv h
  obtain ⟨_, _, _, _, _, _, _, _, _, rfl, _⟩ := w.inner_back
  rfl

/-- No inner sequence among the children. -/
def NoInner (n : Node) : Prop := n.kind.wraps = true → ∀ x ∈ n.children, inner x = false

theorem noInner_keep {n q h n' q' h' o} (s : Steps cx n q h n' q' h' o) (hn : NoInner n) : NoInner n' := by
  induction s with
  | refl => exact hn
  | trans s1 s2 ih1 ih2 => exact ih2 (ih1 hn)
  | @child c q h c' q' h' o k sp l r _ st ih =>
    intro hw x hx
    have hn := hn hw
    rcases List.mem_append.1 hx with hx | hx
    · exact hn x (by simp [Node.children, hx])
    · rcases List.mem_cons.1 hx with rfl | hx
      · have h1 := hn c (by simp [Node.children])
        cases h2 : inner x with
        | false => rfl
        | true => rw [Way.inner (.step (.refl _) ⟨_, _, _, _, _, st⟩) h2] at h1; cases h1
      · exact hn x (by simp [Node.children, hx])
  | insert k sp l r h1 _ => intro hw; cases k <;> first | (cases hw; done) | (cases h1; done)
  | lose => intro hw; cases hw
  | register => exact hn
  | emit => exact hn
  | headBlock => intro hw; cases hw
  | headCase => intro hw; cases hw
  | wrap k sp l e r q1 c q2 h h1 =>
    intro hw x hx
    have hn := hn hw
    rcases List.mem_append.1 hx with hx | hx
    · exact hn x (by simp [Node.children, hx])
    · rcases List.mem_cons.1 hx with rfl | hx
      · rfl
      · exact hn x (by simp [Node.children, hx])
  | truth k sp l e r q1 b a q2 h h1 =>
    intro hw x hx
    have hn := hn hw
    rcases List.mem_append.1 hx with hx | hx
    · exact hn x (by simp [Node.children, hx])
    · rcases List.mem_cons.1 hx with rfl | hx
      · rfl
      · exact hn x (by simp [Node.children, hx])
  | body k sp l s r q h h1 => intro hw; cases k <;> first | (cases hw; done) | (simp [Kind.bodyPos] at h1; done)
  | addElse => intro hw; cases hw
  | arrow => intro hw; cases hw

theorem fit_root {n q h n' q' h' o} (s : Steps cx n q h n' q' h' o) (hn : Fit n) : Fit n' := by
  have w : Way cx n n' := .step (.refl _) ⟨_, _, _, _, _, s⟩
  refine ⟨?_, ?_, s.noInner_keep hn.wrap, ?_⟩
  · intro hi
    rw [w.root.1] at hi
    have h1 := w.inert (by generalize n.kind = k at hi; cases k <;> first | rfl | cases hi)
    rw [hn.leaf hi] at h1
    cases h : n'.children with
    | nil => rfl
    | cons c cs => rw [h] at h1; cases h1
  · rintro sp op sp1 sp2 cs e mid sp3 cs' rfl
    obtain ⟨_, _, _, _, _, _, _, _, _, rfl, wy⟩ := w.inner_back
    exact wy.blank (hn.mid _ _ _ _ _ _ _ _ _ rfl)
  · rintro sp sp1 c sp2 cs e rfl
    obtain ⟨k, nsp, ncs⟩ := n
    have hk : k = .paren := w.root.1.symm
    subst hk
    have h1 := w.inert rfl
    change List.Forall₂ (Way cx) ncs _ at h1
    obtain ⟨x, _, wx, h3, rfl⟩ := List.forall₂_cons_right_iff.1 h1
    cases h3
    obtain ⟨kx, spx, csx⟩ := x
    have hk : kx = .seq := wx.root.1.symm
    subst hk
    have h2 := wx.inert rfl
    change List.Forall₂ (Way cx) csx _ at h2
    obtain ⟨x1, _, wx1, h6, rfl⟩ := List.forall₂_cons_right_iff.1 h2
    obtain ⟨x2, _, wx2, h7, rfl⟩ := List.forall₂_cons_right_iff.1 h6
    cases h7
    obtain ⟨k1, s1, c1⟩ := x1
    have hk : k1 = .counter c := wx1.root.1.symm
    subst hk
    have h8 := hn.paren _ _ _ _ _ _ rfl
    cases h9 : inner e with
    | false => rfl
    | true => rw [wx2.inner h9] at h8; cases h8

/-- Nothing for `Fit` to look at. -/
def Calm (m : Node) : Prop :=
  m.kind ≠ .seq ∧ (m.kind.injected = true → m.children = []) ∧ (m.kind.wraps = true → ∀ x ∈ m.children, inner x = false) ∧
    (m.kind = .paren → ∀ x ∈ m.children, x.kind ≠ .seq)

instance (m : Node) : Decidable (Calm m) := inferInstanceAs (Decidable (_ ∧ _ ∧ _ ∧ _))

theorem Calm.fit {m : Node} (h : Calm m) : Fit m := by
  obtain ⟨h1, h2, h3, h4⟩ := h
  refine ⟨h2, fun sp op sp1 sp2 cs e mid sp3 cs' h => (h1 (by rw [h]; rfl)).elim, h3, ?_⟩
  rintro sp sp1 c sp2 cs e rfl
  exact (h4 rfl _ (List.mem_singleton.2 rfl) rfl).elim

theorem fit_any {x : Node} (h : ∀ m ∈ each x, Calm m) : ∀ m ∈ each x, Fit m := fun m hm => (h m hm).fit

theorem fit_counter (c : Counter) : Fit (counterExpr c) :=
  Calm.fit ⟨by simp [counterExpr, Node.kind], fun _ => rfl, fun h => (by cases h), fun h => (by cases h)⟩

/-- `Fit` is kept. -/
theorem fit_keep {n q h n' q' h' o} (s : Steps cx n q h n' q' h' o) (hn : ∀ m ∈ each n, Fit m) : ∀ m ∈ each n', Fit m := by
  refine s.each_all (P := Fit) fit_root ?_ ?_ ?_
    (fun _ => .trivial (by simp [Node.kind]) rfl rfl (by simp [Node.kind]))
    (fun e he => .trivial (by simp [Node.kind]) rfl rfl (by simp [Node.kind])) hn
  · intro c m hm
    rcases each_stmt hm with rfl | rfl
    · exact .trivial (by simp [counterStmt, Node.kind]) rfl rfl (by simp [counterStmt, Node.kind])
    · exact fit_counter c
  · intro c e k sp l r hk hp he
    have hi : inner e = false := hp.wrap hk e (by simp [Node.children])
    refine each_wrap_cases ⟨fun h => (Bool.false_ne_true h).elim, ?_, fun h => (Bool.false_ne_true h).elim, ?_⟩
      ⟨fun h => (Bool.false_ne_true h).elim, ?_, fun h => (Bool.false_ne_true h).elim, ?_⟩ (fit_counter c) he
    · intro sp op sp1 sp2 cs e mid sp3 cs' h
      cases h
    · intro sp sp1 c sp2 cs e h
      cases h
      exact hi
    · intro sp op sp1 sp2 cs e mid sp3 cs' h
      cases h
    · intro sp sp1 c sp2 cs e h
      cases h
  · intro b a e he
    refine each_truth_cases ⟨fun h => (Bool.false_ne_true h).elim, ?_, fun h => (Bool.false_ne_true h).elim, ?_⟩ (fit_counter _)
      ⟨fun h => (Bool.false_ne_true h).elim, ?_, fun h => (Bool.false_ne_true h).elim, ?_⟩
      (.trivial (by simp [Node.kind]) rfl rfl (by simp [Node.kind])) ?_ ?_ ?_ he
    · intro sp op sp1 sp2 cs e mid sp3 cs' h
      cases h
    · intro sp sp1 c sp2 cs e h
      cases h
    · intro sp op sp1 sp2 cs e mid sp3 cs' h
      cases h
      exact blank_mid b a
    · intro sp sp1 c sp2 cs e h
      cases h
    · exact fit_any (by decide)
    · refine each_mid (Calm.fit ?_) (Calm.fit ?_) (fit_any (by decide)) (fit_counter _) (Calm.fit (by decide))
      · refine ⟨by simp [Node.kind], fun h => (by cases h), fun h => (by cases h), fun _ x hx => ?_⟩
        cases List.mem_singleton.1 hx
        simp [truthCond, Node.kind]
      · refine ⟨by simp [truthCond, Node.kind], fun h => (by cases h), fun _ x hx => ?_, fun h => (by cases h)⟩
        simp only [truthCond, Node.children, List.mem_cons, List.not_mem_nil, or_false] at hx
        rcases hx with rfl | rfl | rfl <;> rfl
    · exact fit_any (by decide)

end Steps

/-! ### Tags -/

namespace Sem

theorem sumOf_zero {μ : Node → Nat} {l : List Node} (h : ∀ x ∈ l, μ x = 0) : sumOf μ l = 0 := by
  induction l with
  | nil => rfl
  | cons x l ih => rw [sumOf_cons, h x (by simp), ih fun y hy => h y (by simp [hy])]

theorem weight_blank {t : Tag} (ht : t.2 ≠ Span.dummy) {n : Node} (h : Steps.Blank n) : weight t n = 0 := by
  induction n using Node.ind with
  | h k sp cs ih =>
    have hsp : sp = Span.dummy := h _ (each_self _)
    subst hsp
    have hc : ∀ c ∈ cs, weight t c = 0 := fun c hc => ih c hc fun m hm => h m (mem_each_mk.2 (.inr ⟨c, hc, hm⟩))
    have hs : sumOf (weight t) cs = 0 := sumOf_zero hc
    rw [weight_mk, if_neg (ne_dummy ht k), hs]
    unfold extra
    split
    · next e =>
      have he : e.span = Span.dummy := h e (mem_each_mk.2 (.inr ⟨e, by simp, each_self e⟩))
      rw [he, if_neg (ne_dummy ht _)]
      split <;> rfl
    · rfl

theorem weight_counterStmt {t : Tag} (ht : t.2 ≠ Span.dummy) (c : Counter) : weight t (counterStmt c) = 0 := by
  refine weight_blank ht fun m hm => ?_
  rcases Steps.each_stmt hm with rfl | rfl <;> rfl

theorem weight_wrapCounter {t : Tag} (ht : t.2 ≠ Span.dummy) (c : Counter) (e : Node) :
    weight t (wrapCounter c e) = weight t e := by
  unfold wrapCounter counterExpr
  simp [weight_mk, ne_dummy ht, sumOf_cons, sumOf_nil, extra]

theorem weight_wrapTruth {t : Tag} (ht : t.2 ≠ Span.dummy) (b a : Nat) (e : Node) :
    weight t (wrapTruth b a e) = weight t e := by
  have h1 := weight_blank ht (Steps.blank_mid b a)
  have h2 : weight t tempTarget = 0 := weight_blank ht (Steps.blank_spans.2 (by decide))
  have h3 : weight t tempExpr = 0 := weight_blank ht (Steps.blank_spans.2 (by decide))
  unfold wrapTruth counterExpr increaseTrue
  rw [weight_mk, sumOf_cons, sumOf_cons, sumOf_nil, weight_mk (k := .seq), sumOf_cons, sumOf_cons, sumOf_cons, sumOf_nil, h1, h3,
    weight_mk (k := .assign "="), sumOf_cons, sumOf_cons, sumOf_nil, h2]
  simp [weight_mk, ne_dummy ht, sumOf_nil, extra]

theorem extra_child {t : Tag} {k : Kind} {l r : List Node} {c c' : Node} (hk : c'.kind = c.kind) (hs : c'.span = c.span) :
    extra t k (l ++ c' :: r) = extra t k (l ++ c :: r) := by
  unfold extra
  cases k with
  | arrow a =>
    match l, r with
    | [], [] => rfl
    | [], [x] => rfl
    | [], x :: y :: r => rfl
    | [x], [] => simp only [List.cons_append, List.nil_append, hk, hs]
    | [x], y :: r => rfl
    | x :: y :: [], r => rfl
    | x :: y :: z :: l, r => rfl
  | _ => rfl

theorem extra_of {t : Tag} {k : Kind} (hk : ∀ a, k ≠ .arrow a) (cs : List Node) : extra t k cs = 0 := by
  unfold extra
  split
  · exact absurd rfl (hk _)
  · rfl

end Sem

namespace Steps
variable {cx : Ctx}

/-- Steps keep the number of nodes with a tag. -/
theorem weight_eq {t : Sem.Tag} (ht : t.2 ≠ Span.dummy) (hn : t.1 ≠ .none) {n q h n' q' h' o}
    (s : Steps cx n q h n' q' h' o) : weight t n' = weight t n := by
  induction s with
  | refl => rfl
  | trans _ _ ih1 ih2 => exact ih2.trans ih1
  | child k sp l r _ st ih =>
    rw [weight_mk, weight_mk, extra_child st.root.1 st.root.2]
    simp only [sumOf_append, sumOf_cons, ih]
  | @insert s q h s' q' h' o k sp l r hk st ih =>
    have ho : sumOf (weight t) o = 0 := by
      refine sumOf_zero fun y hy => ?_
      obtain ⟨c, rfl⟩ := st.out_counters y hy
      exact weight_counterStmt ht c
    have hk' : ∀ a, k ≠ .arrow a := by
      rintro a rfl
      cases hk
    rw [weight_mk, weight_mk, extra_of hk', extra_of hk']
    simp only [sumOf_append, sumOf_cons, ih, ho, Nat.add_zero]
  | lose sp l r st ih =>
    rw [weight_mk, weight_mk, extra_child st.root.1 st.root.2]
    simp only [sumOf_append, sumOf_cons, ih]
  | register => rfl
  | emit => rfl
  | headBlock sp ss q1 c q2 h =>
    rw [weight_mk, weight_mk, extra_of (by simp), extra_of (by simp), sumOf_cons, weight_counterStmt ht, Nat.zero_add]
  | headCase sp test ss q1 c q2 h =>
    rw [weight_mk, weight_mk, extra_of (by simp), extra_of (by simp), sumOf_cons, sumOf_cons, weight_counterStmt ht,
      Nat.zero_add, sumOf_cons]
  | wrap k sp l e r q1 c q2 h hk =>
    have hk' : ∀ a, k ≠ .arrow a := by
      rintro a rfl
      cases hk
    rw [weight_mk, weight_mk, extra_of hk', extra_of hk']
    simp only [sumOf_append, sumOf_cons, weight_wrapCounter ht]
  | truth k sp l e r q1 b a q2 h hk =>
    have hk' : ∀ a, k ≠ .arrow a := by
      rintro a rfl
      cases hk
    rw [weight_mk, weight_mk, extra_of hk', extra_of hk']
    simp only [sumOf_append, sumOf_cons, weight_wrapTruth ht]
  | body k sp l s r q h hb =>
    have hk' : ∀ a, k ≠ .arrow a := by
      rintro a rfl
      simp [Kind.bodyPos] at hb
    rw [weight_mk, weight_mk, extra_of hk', extra_of hk']
    simp only [sumOf_append, sumOf_cons, weight_mk t .block, ne_dummy ht, if_false, extra_of (k := .block) (by simp), sumOf_nil,
      Nat.zero_add, Nat.add_zero]
  | addElse sp test cons alt q h ha =>
    have h1 : weight t alt = 0 := by
      unfold Node.isNone at ha
      split at ha
      · rw [weight_mk, if_neg (by rintro rfl; exact hn rfl), extra_of (by simp)]
        rfl
      · cases ha
    rw [weight_mk, weight_mk, extra_of (by simp), extra_of (by simp)]
    simp only [sumOf_cons, sumOf_nil, weight_mk t .block, ne_dummy ht, if_false, extra_of (k := .block) (by simp),
      Nat.zero_add, Nat.add_zero, h1]
  | arrow a sp params e q h he =>
    rw [weight_mk, weight_mk]
    have h1 : extra t (.arrow a) [params, e] = if (Kind.returnStmt, e.span) = t then 1 else 0 := by
      simp only [extra, if_neg he]
    have h2 : extra t (.arrow a) [params, mk .block Span.dummy [mk .returnStmt e.span [e]]] = 0 := rfl
    rw [h1, h2]
    simp only [extra_of (k := .block) (by simp), extra_of (k := .returnStmt) (by simp), sumOf_cons, sumOf_nil, weight_mk t .block, weight_mk t .returnStmt,
      ne_dummy ht, if_false, Nat.zero_add, Nat.add_zero]
    omega

end Steps
end Verif
