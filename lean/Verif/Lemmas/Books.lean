import Verif.Lemmas.Hit
/-
The emitted code keeps the books.
-/
namespace Verif.Runtime
open Js Template

/-- Entries of the coverage object against entries of the books. -/
def Entry (boxes : List Box) (e : String × Nat) (p : String × Cell) : Prop :=
  p.1 = e.1 ∧ ∃ x, boxes[e.2]? = some x ∧ p.2 = .data (.ref x.root)

theorem Entry.mono {boxes more : List Box} {e : String × Nat} {p : String × Cell} (h : Entry boxes e p) :
    Entry (boxes ++ more) e p := by
  obtain ⟨h1, x, h2, h3⟩ := h
  refine ⟨h1, x, ?_, h3⟩
  rw [List.getElem?_append_left (List.getElem?_eq_some_iff.1 h2).1]
  exact h2

theorem entries_get {boxes : List Box} {m : IndexMap String Nat} {ps : IndexMap String Cell}
    (h : List.Forall₂ (Entry boxes) m ps) (k : String) :
    (m.get k = none ∧ ps.get k = none) ∨
      ∃ n x, m.get k = some n ∧ boxes[n]? = some x ∧ ps.get k = some (.data (.ref x.root)) := by
  induction h with
  | nil => exact Or.inl ⟨rfl, rfl⟩
  | @cons e p m ps he _ ih =>
    obtain ⟨k1, n⟩ := e
    obtain ⟨k2, c⟩ := p
    obtain ⟨h1, x, h2, h3⟩ := he
    simp only at h1 h2 h3
    subst h1 h3
    simp only [IndexMap.get]
    by_cases hk : k2 = k
    · rw [if_pos hk, if_pos hk]
      exact Or.inr ⟨n, x, rfl, h2, rfl⟩
    · rw [if_neg hk, if_neg hk]
      exact ih

theorem entries_insert {boxes : List Box} {m : IndexMap String Nat} {ps : IndexMap String Cell}
    (h : List.Forall₂ (Entry boxes) m ps) {k : String} {n : Nat} {c : Cell} (hc : Entry boxes (k, n) (k, c)) :
    List.Forall₂ (Entry boxes) (m.insert k n) (ps.insert k c) := by
  induction h with
  | nil => exact .cons hc .nil
  | @cons e p m ps he ht ih =>
    obtain ⟨k1, n1⟩ := e
    obtain ⟨k2, c2⟩ := p
    have h1 : k2 = k1 := he.1
    subst h1
    simp only [IndexMap.insert]
    by_cases hk : k2 = k
    · subst hk
      rw [if_pos rfl, if_pos rfl]
      exact .cons hc ht
    · rw [if_neg hk, if_neg hk]
      exact .cons he ih

/-- The heap and the scopes are as the books say. -/
structure Inv (gcv : String) (H : List Obj) (F : List (IndexMap String Value)) (insts : List Instance)
    (b : Books) (boxes : List Box) : Prop where
  root : Root gcv H
  size : 4 ≤ H.length
  len : boxes.length = b.sets.length
  held : ∀ (n : Nat) x e, boxes[n]? = some x → b.sets[n]? = some e → Held H x e
  apart : ∀ (n m : Nat) (x y : Box), n < m → boxes[n]? = some x → boxes[m]? = some y → x.hi ≤ y.lo
  inside : ∀ x ∈ boxes, 4 ≤ x.lo ∧ x.hi ≤ H.length
  reg : (b.current = [] ∧ Unopened gcv H) ∨ ∃ R ps, Opened gcv H R ps ∧
    (∀ x ∈ boxes, R < x.lo ∨ x.hi ≤ R) ∧ List.Forall₂ (Entry boxes) b.current ps
  lenw : insts.length = b.writes.length
  wired : ∀ (k : Nat) inst n, insts[k]? = some inst → b.writes[k]? = some n →
    ∃ x, boxes[n]? = some x ∧ Wired H F x.root inst

theorem lt_of_getElem? {α : Type} {l : List α} {n : Nat} {a : α} (h : l[n]? = some a) : n < l.length :=
  (List.getElem?_eq_some_iff.1 h).1

theorem root_of_agree {gcv : String} {H H' : List Obj} (h : Root gcv H)
    (ha : H'[objectProto]? = H[objectProto]?) : Root gcv H' := by
  obtain ⟨ps, h1, h2⟩ := h
  exact ⟨ps, ha.trans h1, h2⟩

/-- How the realm goes on: nothing is forgotten, and new data sets have new addresses. -/
structure Grows (H : List Obj) (F : List (IndexMap String Value)) (insts : List Instance) (b : Books)
    (boxes : List Box) (H' : List Obj) (F' : List (IndexMap String Value)) (insts' : List Instance) (b' : Books)
    (boxes' : List Box) : Prop where
  heap : H.length ≤ H'.length
  frames : F <+: F'
  insts_ : insts <+: insts'
  writes : b.writes <+: b'.writes
  boxes_ : boxes <+: boxes'
  fresh : ∀ x ∈ boxes', x ∈ boxes ∨ H.length ≤ x.lo

theorem Grows.refl {H : List Obj} {F : List (IndexMap String Value)} {insts : List Instance} {b : Books}
    {boxes : List Box} : Grows H F insts b boxes H F insts b boxes :=
  ⟨Nat.le_refl _, List.prefix_refl _, List.prefix_refl _, List.prefix_refl _, List.prefix_refl _, fun _ h => Or.inl h⟩

theorem Grows.trans {H H1 H2 : List Obj} {F F1 F2 : List (IndexMap String Value)} {insts insts1 insts2 : List Instance}
    {b b1 b2 : Books} {boxes boxes1 boxes2 : List Box} (h : Grows H F insts b boxes H1 F1 insts1 b1 boxes1)
    (h' : Grows H1 F1 insts1 b1 boxes1 H2 F2 insts2 b2 boxes2) : Grows H F insts b boxes H2 F2 insts2 b2 boxes2 := by
  refine ⟨Nat.le_trans h.heap h'.heap, h.frames.trans h'.frames, h.insts_.trans h'.insts_, h.writes.trans h'.writes,
    h.boxes_.trans h'.boxes_, fun x hx => ?_⟩
  rcases h'.fresh x hx with hx | hx
  · exact h.fresh x hx
  · exact Or.inr (Nat.le_trans h.heap hx)

/-- A change inside the box of a data set. -/
theorem Inv.inbox {gcv : String} {H : List Obj} {F : List (IndexMap String Value)}
    {insts : List Instance} {b : Books} {boxes : List Box} (hi : Inv gcv H F insts b boxes)
    {m a : Nat} {x : Box} {e e' : Input × FileCoverage} {o o' : Obj} (hx : boxes[m]? = some x)
    (he : b.sets[m]? = some e) (h1 : H[a]? = some o) (h2 : ∀ env, o ≠ getter env) (h3 : x.lo ≤ a) (h4 : a < x.hi)
    (h7 : Held (H.set a o') x e') : Inv gcv (H.set a o') F insts { b with sets := b.sets.set m e' } boxes := by
  have hlen : a < H.length := lt_of_getElem? h1
  have hin := hi.inside x (List.mem_of_getElem? hx)
  -- what is outside the box of `x` stays
  have hout : ∀ b', b' < x.lo ∨ x.hi ≤ b' → (H.set a o')[b']? = H[b']? :=
    fun b' hb => List.getElem?_set_ne (by omega)
  have hclo : ∀ (fa : Nat) (env : List Nat), H[fa]? = some (getter env) → (H.set a o')[fa]? = some (getter env) := by
    intro fa env hf
    rw [List.getElem?_set_ne]
    · exact hf
    · intro e
      subst e
      rw [h1] at hf
      injection hf with hf
      exact h2 env hf
  constructor
  · exact root_of_agree hi.root (hout _ (by unfold objectProto; omega))
  · rw [List.length_set]; exact hi.size
  · simp [hi.len]
  · intro n' y e2 hy he'
    by_cases hnm : m = n'
    · subst hnm
      rw [hx] at hy
      injection hy with hy
      subst hy
      rw [List.getElem?_set_self (lt_of_getElem? he)] at he'
      injection he' with he'
      subst he'
      exact h7
    · rw [List.getElem?_set_ne hnm] at he'
      refine (hi.held n' y e2 hy he').agree fun b' hb1 hb2 => hout b' ?_
      rcases Nat.lt_or_gt_of_ne hnm with h | h
      · have := hi.apart m n' x y h hx hy
        omega
      · have := hi.apart n' m y x h hy hx
        omega
  · exact hi.apart
  · intro y hy
    rw [List.length_set]
    exact hi.inside y hy
  · rcases hi.reg with ⟨r1, gs, r2, r3⟩ | ⟨R, ps, ⟨⟨gs, r1, r2⟩, r3, r4⟩, r5, r6⟩
    · exact Or.inl ⟨r1, gs, (hout _ (by unfold globalObj; omega)).trans r2, r3⟩
    · refine Or.inr ⟨R, ps, ⟨⟨gs, (hout _ (by unfold globalObj; omega)).trans r1, r2⟩, ?_, r4⟩, r5, r6⟩
      exact (hout _ (r5 x (List.mem_of_getElem? hx))).trans r3
  · exact hi.lenw
  · intro k' inst' n' hi' hw'
    obtain ⟨y, hy, hwy⟩ := hi.wired k' inst' n' hi' hw'
    exact ⟨y, hy, hwy.mono (List.prefix_refl _) hclo⟩

theorem prefix_get {α : Type} {l l' : List α} (h : l <+: l') {n : Nat} {a : α} (hn : l[n]? = some a) :
    l'[n]? = some a := by
  obtain ⟨T, rfl⟩ := h
  rw [List.getElem?_append_left (lt_of_getElem? hn)]
  exact hn

theorem Root.prefix {gcv : String} {H H' : List Obj} (h : Root gcv H) (hp : H <+: H') : Root gcv H' := by
  obtain ⟨T, rfl⟩ := hp
  refine root_of_agree h ?_
  obtain ⟨ps, h1, _⟩ := h
  exact List.getElem?_append_left (lt_of_getElem? h1)

/-- New objects and scopes. -/
theorem Inv.extend {gcv : String} {H H' : List Obj} {F F' : List (IndexMap String Value)}
    {insts : List Instance} {b : Books} {boxes : List Box} (hi : Inv gcv H F insts b boxes) (hH : H <+: H')
    (hF : F <+: F') : Inv gcv H' F' insts b boxes := by
  have hle := hH.length_le
  refine ⟨hi.root.prefix hH, Nat.le_trans hi.size hle, hi.len, ?_, hi.apart, fun y hy => ?_, ?_, hi.lenw, ?_⟩
  · intro m y e hy he
    have hin := hi.inside y (List.mem_of_getElem? hy)
    refine (hi.held m y e hy he).agree fun a ha1 ha2 => ?_
    obtain ⟨T, rfl⟩ := hH
    exact List.getElem?_append_left (by omega)
  · have := hi.inside y hy
    omega
  · rcases hi.reg with ⟨r1, gs, r2, r3⟩ | ⟨R, ps, ⟨⟨gs, r1, r2⟩, r3, r4⟩, r5, r6⟩
    · exact Or.inl ⟨r1, gs, prefix_get hH r2, r3⟩
    · exact Or.inr ⟨R, ps, ⟨⟨gs, prefix_get hH r1, r2⟩, prefix_get hH r3, r4⟩, r5, r6⟩
  · intro k inst m hk hw
    obtain ⟨y, hy, hwy⟩ := hi.wired k inst m hk hw
    exact ⟨y, hy, hwy.mono hF fun fa env hf => prefix_get hH hf⟩

/-- Hitting a counter, wherever the coverage function is visible. -/
theorem Inv.hits {gcv : String} {H : List Obj} {F : List (IndexMap String Value)} {L : List Nat}
    {insts : List Instance} {b : Books} {boxes : List Box} {w : World} (hi : Inv gcv H F insts b boxes)
    {k m n : Nat} {c : Counter} {inst : Instance} {e : Input × FileCoverage} {x : Box} {env : List Nat}
    (hinst : insts[k]? = some inst) (hm : b.writes[k]? = some m) (he : b.sets[m]? = some e) (hx : boxes[m]? = some x)
    (hn : e.2.count c = some n) (hs : scopeOf F env inst.2 = some inst.1) :
    ∃ H', expr w (call w 2) env (counter inst.2 c) ⟨H, F, L⟩ = .ok (⟨H', F ++ [[]], L⟩, .num n) ∧
      H.length = H'.length ∧ (∀ a, a < x.lo ∨ x.hi ≤ a ∨ a = x.root → H'[a]? = H[a]?) ∧
      Inv gcv H' (F ++ [[]]) insts (b.hit k c) boxes ∧
      ∀ (fa : Nat) (env : List Nat), H[fa]? = some (getter env) → H'[fa]? = some (getter env) := by
  obtain ⟨x', hx', hw⟩ := hi.wired k inst m hinst hm
  rw [hx] at hx'
  injection hx' with hx'
  subst hx'
  obtain ⟨a, o, o', h1, h2, h3, h4, h5, h6, h7⟩ :=
    hit_ok (w := w) (L := L) (F := F) 1 (hi.held m x e hx he) hw hs hn
  have hb : b.hit k c = { b with sets := b.sets.set m (e.1, e.2.hit c) } := by
    unfold Books.hit
    rw [hm]
    simp only
    congr 1
    apply List.ext_getElem?
    intro n'
    rw [List.getElem?_modify, List.getElem?_set]
    by_cases hmn : m = n'
    · subst hmn
      simp only [if_true, if_pos (lt_of_getElem? he), he]
      rfl
    · simp [hmn]
  refine ⟨H.set a o', h6, (List.length_set ..).symm, ?_, ?_, ?_⟩
  · intro a' ha'
    exact List.getElem?_set_ne (by omega)
  · rw [hb]
    exact (hi.inbox hx he h1 h2 h3 h4 h7).extend (List.prefix_refl _) (List.prefix_append _ _)
  · intro fa env' hf
    rw [List.getElem?_set_ne]
    · exact hf
    · intro e
      subst e
      rw [h1] at hf
      injection hf with hf
      exact h2 env' hf

/-- Hitting a counter. -/
theorem Inv.hit {gcv : String} {H : List Obj} {F : List (IndexMap String Value)} {L : List Nat}
    {insts : List Instance} {b : Books} {boxes : List Box} {w : World} (hi : Inv gcv H F insts b boxes)
    {k : Nat} {c : Counter} (ha : b.Allows gcv (.hit k c)) :
    ∃ H' F', playOne w insts (.hit k c) ⟨H, F, L⟩ = .ok (⟨H', F', L⟩, insts) ∧
      Inv gcv H' F' insts (b.hit k c) boxes ∧ Grows H F insts b boxes H' F' insts (b.hit k c) boxes := by
  obtain ⟨m, hm, e, he, hc⟩ := ha
  have hm : b.writes[k]? = some m := hm
  have he : b.sets[m]? = some e := he
  obtain ⟨n, hn⟩ := Option.isSome_iff_exists.1 hc
  have hk : k < insts.length := by rw [hi.lenw]; exact lt_of_getElem? hm
  obtain ⟨inst, hinst⟩ : ∃ inst, insts[k]? = some inst := ⟨_, List.getElem?_eq_getElem hk⟩
  obtain ⟨x, hx, hw⟩ := hi.wired k inst m hinst hm
  obtain ⟨H', h1, h2, _, h3, _⟩ := hi.hits (w := w) (L := L) hinst hm he hx hn hw.sees
  refine ⟨H', F ++ [[]], ?_, h3, Nat.le_of_eq h2, List.prefix_append _ _, List.prefix_refl _, ?_, List.prefix_refl _,
    fun _ h => Or.inl h⟩
  · unfold playOne
    simp only [hinst]
    rw [bind_ok (show eval w [inst.1] (counter inst.2 c) ⟨H, F, L⟩ = _ from h1)]
    rfl
  · unfold Books.hit
    rw [hm]
    exact List.prefix_refl _

end Verif.Runtime
