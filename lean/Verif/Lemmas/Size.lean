import Verif.Spec.Size
import Verif.Lemmas.Meters
import Verif.Lemmas.Outcome
/-
How large reports and instrumented programs are.
-/
namespace Verif
open Node RegOp

namespace IndexMap
variable {V : Type}

theorem length_insert_le (m : IndexMap Nat V) (k : Nat) (v : V) : (m.insert k v).length ≤ m.length + 1 := by
  induction m with
  | nil => exact Nat.le_refl _
  | cons e m ih =>
    obtain ⟨k', v'⟩ := e
    simp only [insert]
    split
    · simp
    · simp only [List.length_cons]; omega

theorem sum_insert_le (m : IndexMap Nat V) (k : Nat) (v : V) (f : V → Nat) :
    ((m.insert k v).map fun e => f e.2).sum ≤ (m.map fun e => f e.2).sum + f v := by
  induction m with
  | nil => simp [insert]
  | cons e m ih =>
    obtain ⟨k', v'⟩ := e
    simp only [insert]
    split
    · simp; omega
    · simp only [List.map_cons, List.sum_cons]; omega

theorem sum_modify_le (m : IndexMap Nat V) (k : Nat) (g : V → V) (f : V → Nat) (c : Nat)
    (h : ∀ v, (k, v) ∈ m → f (g v) ≤ f v + c) :
    ((IndexMap.modify m k g).map fun e => f e.2).sum ≤ (m.map fun e => f e.2).sum + c := by
  induction m with
  | nil => simp [modify]
  | cons e m ih =>
    obtain ⟨k', v'⟩ := e
    simp only [modify]
    split
    · next hk =>
      subst hk
      have := h v' (List.mem_cons_self ..)
      simp only [List.map_cons, List.sum_cons]; omega
    · have := ih fun v hv => h v (List.mem_cons_of_mem _ hv)
      simp only [List.map_cons, List.sum_cons]; omega

/-- A sum over a table, by its keys. -/
theorem sum_by_keys {m : IndexMap Nat V} (hn : m.NodupKeys) (f : V → Nat) (N : Nat) (hk : ∀ k ∈ m.keys, k < N) :
    (m.map fun e => f e.2).sum = ((List.range N).map fun k => ((m.get k).map f).getD 0).sum := by
  induction m with
  | nil => simp [get]
  | cons e m ih =>
    obtain ⟨k', v'⟩ := e
    simp only [NodupKeys, keys, List.map_cons, List.nodup_cons] at hn
    have hnone : IndexMap.get m k' = none := by
      cases hg : IndexMap.get m k' with
      | none => rfl
      | some v => exact absurd ((mem_keys_iff m k').2 ⟨v, hg⟩) hn.1
    have hlt : k' < N := hk k' (by simp [keys])
    have h1 := ih hn.2 fun k h => hk k (by simp only [keys, List.map_cons] at h ⊢; exact List.mem_cons_of_mem _ h)
    have h2 : ∀ l : List Nat, (l.map fun k => ((get ((k', v') :: m) k).map f).getD 0).sum =
        l.count k' * f v' + (l.map fun k => ((IndexMap.get m k).map f).getD 0).sum := by
      intro l
      induction l with
      | nil => simp
      | cons a l ih =>
        simp only [List.map_cons, List.sum_cons, ih, List.count_cons]
        by_cases ha : k' = a
        · subst ha
          simp [get, hnone, Nat.add_mul]
          omega
        · have : (a == k') = false := by simpa using fun h => ha h.symm
          simp [get, ha, this]
          omega
    rw [h2, ← h1]
    have : (List.range N).count k' = 1 :=
      Nat.le_antisymm (List.nodup_iff_count.1 List.nodup_range k') (List.count_pos_iff.2 (List.mem_range.2 hlt))
    simp [this]

end IndexMap

namespace Meter

/-- What a branch counts: an `if` has at most two arms. -/
def branchSize (b : Branch) : Nat := if b.branchType = .if then 3 else 1 + b.locations.length

/-- All entries. -/
def entries : Meter where
  size c := c.inner.statementMap.length + c.inner.fnMap.length + (c.inner.branchMap.map fun e => branchSize e.2).sum
  stmt _ := 1
  fn _ _ := 1
  br t _ := if t = .if then 3 else 1
  arm _ := 1
  newStatement c r := by
    have := IndexMap.length_insert_le c.inner.statementMap c.lastS r
    simp only [SourceCoverage.newStatement]
    omega
  newFunction c n d l := by
    simp only [SourceCoverage.newFunction]
    refine Nat.le_trans (Nat.add_le_add_right (Nat.add_le_add_left (IndexMap.length_insert_le ..) _) _) ?_
    omega
  newBranch c t r g := by
    rw [(newBranch_lastB c t r g).2.2, (newBranch_other c t r g).1, (newBranch_other c t r g).2]
    refine Nat.le_trans (Nat.add_le_add_left (IndexMap.sum_insert_le ..) _) ?_
    simp only [branchSize]
    split <;> simp [Nat.add_assoc]
  addPath c k r c' i h := by
    rw [(addBranchPath_ok h).2.2, (addBranchPath_other h).1, (addBranchPath_other h).2, Nat.add_assoc _ _ 1]
    refine Nat.add_le_add_left (IndexMap.sum_modify_le _ _ _ _ _ fun v hv => ?_) _
    simp only [branchSize]
    split
    · omega
    · simp; omega
  addOwn c k r c' i h hk := by
    rw [(addBranchPath_ok h).2.2, (addBranchPath_other h).1, (addBranchPath_other h).2]
    refine Nat.add_le_add_left (IndexMap.sum_modify_le _ _ _ _ 0 fun v hv => ?_) _
    have h1 : v.branchType = .if := (hk.2 _ hv rfl).1
    simp [branchSize, h1]
  freeze c := by
    have h := (freeze_branchMap c).map fun e => branchSize e.2
    have : ∀ l l' : List Nat, l.Sublist l' → l.sum ≤ l'.sum := by
      intro l l' h
      induction h with
      | slnil => exact Nat.le_refl _
      | cons _ _ ih => simp only [List.sum_cons]; omega
      | cons_cons _ _ ih => simp only [List.sum_cons]; omega
    exact Nat.add_le_add_left (this _ _ h) _
  new path g sm := rfl

theorem stmtSpans_length (n : Node) : n.stmtSpans.length ≤ 1 := by
  unfold stmtSpans
  repeat' split
  all_goals simp

theorem fnSpans_length (cx : Ctx) (n : Node) : (n.fnSpans cx).length ≤ 1 := by
  unfold fnSpans
  split <;> simp

theorem operandSpans_length (e : Node) : e.operandSpans.length ≤ 1 := by
  unfold operandSpans
  split <;> simp

theorem sum_const {A : Type} (l : List A) : (l.map fun _ => 1).sum = l.length := by
  induction l with
  | nil => rfl
  | cons a l ih => simp only [List.map_cons, List.sum_cons, ih, List.length_cons]; omega

/-- A node accounts for at most four entries. -/
theorem own_entries (cx : Ctx) (n : Node) : entries.own cx n ≤ 4 := by
  have h1 := stmtSpans_length n
  have h2 := fnSpans_length cx n
  simp only [own, entries, sum_const]
  unfold branchSpans
  split
  · simp [fnSpans, fnHead, armSpans]; omega
  · simp [fnSpans, fnHead, armSpans, stmtSpans, initOf]
  · simp [fnSpans, fnHead, armSpans]; omega
  · next right =>
    have := operandSpans_length right
    simp [fnSpans, fnHead, armSpans, stmtSpans, initOf]; omega
  · next op sp left right =>
    have := operandSpans_length left
    have := operandSpans_length right
    by_cases h : op.isLogical = true <;> simp [fnSpans, fnHead, armSpans, stmtSpans, initOf, h]; omega
  · have : n.armSpans.length ≤ 2 := by
      clear h1 h2
      unfold armSpans
      split
      · simp
      · simp
      · exact Nat.le_succ_of_le (operandSpans_length _)
      · split
        · rw [List.length_append]
          exact Nat.add_le_add (operandSpans_length _) (operandSpans_length _)
        · simp
      · simp
    simp; omega

theorem weight_entries (cx : Ctx) (n : Node) : entries.weight cx n ≤ 4 * n.size := by
  unfold weight Node.size
  induction n.each with
  | nil => simp
  | cons a l ih =>
    have := own_entries cx a
    simp only [List.map_cons, List.sum_cons, List.length_cons]
    omega

end Meter

/-! ### Programs -/

/-- The number of nodes that bodies still to be made blocks will add. -/
def Kind.slots (k : Kind) (cs : List Kind) : Nat :=
  match k, cs with
  | .ifStmt, [_, a, b] => (if a = .block then 0 else 1) + (if b = .block then 0 else 1)
  | .withStmt, [_, b] => if b = .block then 0 else 1
  | .loop _, cs => if cs.getLast? = some .block then 0 else 1
  | .arrow _, [_, b] => if b = .block then 0 else 2
  | _, _ => 0

namespace Node

mutual
/-- The nodes of a tree, with those that bodies still to be made blocks will add. -/
def room : Node → Nat
  | mk k _ cs => 1 + k.slots (cs.map kind) + roomList cs
/-- `room` on lists. -/
def roomList : List Node → Nat
  | [] => 0
  | c :: cs => room c + roomList cs
end

theorem slots_le (k : Kind) (cs : List Kind) : k.slots cs ≤ 2 := by
  unfold Kind.slots
  split
  · split <;> split <;> simp
  · split <;> simp
  · split <;> simp
  · split <;> simp
  · simp

theorem size_mk (k : Kind) (sp : Span) (cs : List Node) : size (mk k sp cs) = 1 + (cs.map size).sum := by
  have : ∀ cs : List Node, (eachList cs).length = (cs.map size).sum := by
    intro cs
    induction cs with
    | nil => rfl
    | cons c cs ih => simp [eachList, ih, size]
  simp only [size, each, List.length_cons, this]
  omega

theorem roomList_eq (cs : List Node) : roomList cs = (cs.map room).sum := by
  induction cs with
  | nil => rfl
  | cons c cs ih => simp [roomList, ih]

theorem room_mk (k : Kind) (sp : Span) (cs : List Node) :
    room (mk k sp cs) = 1 + k.slots (cs.map kind) + (cs.map room).sum := by rw [room, roomList_eq]

theorem size_le_room (n : Node) : n.size ≤ n.room ∧ n.room ≤ 3 * n.size := by
  induction n using Node.ind with
  | h k sp cs ih =>
    rw [size_mk, room_mk]
    have hs := slots_le k (cs.map kind)
    have : (cs.map size).sum ≤ (cs.map room).sum ∧ (cs.map room).sum ≤ 3 * (cs.map size).sum := by
      clear hs
      induction cs with
      | nil => simp
      | cons c cs ihl =>
        have h1 := ih c (by simp)
        have h2 := ihl fun x hx => ih x (by simp [hx])
        simp only [List.map_cons, List.sum_cons]
        omega
    omega

end Node

/-- The number of counters a history asks for. -/
def RegOp.asked (h : List RegOp) : Nat := h.countP fun | .branch .. => false | _ => true

/-- An upper bound for the nodes that come with a counter. -/
def Counter.nodes : Nat := 48

namespace Steps
variable {cx : Ctx}

theorem room_counterStmt (c : Counter) : (counterStmt c).room = 2 := by
  simp [counterStmt, counterExpr, room_mk, Kind.slots]

theorem room_wrapTruth (b a : Nat) (e : Node) : (wrapTruth b a e).room ≤ e.room + Counter.nodes := by
  simp [wrapTruth, increaseTrue, truthCond, validateTrue, callTemp, tempExpr, tempTarget, counterExpr, room_mk, Kind.slots,
    Counter.nodes]
  omega

theorem asked_concat (h : List RegOp) (op : RegOp) : RegOp.asked (h ++ [op]) = RegOp.asked h + (op.counters h).length := by
  unfold RegOp.asked
  rw [List.countP_append]
  cases op <;> rfl

theorem slots_child (k : Kind) {c c' : Node} (h : c'.kind = c.kind) (l r : List Node) :
    k.slots ((l ++ c' :: r).map kind) = k.slots ((l ++ c :: r).map kind) := by
  rw [List.map_append, List.map_append, List.map_cons, List.map_cons, h]

theorem slots_list {k : Kind} {l : List Node} (h : k.listPos l = true) (cs : List Kind) : k.slots cs = 0 := by
  unfold Kind.listPos at h
  split at h <;> first | rfl | cases h

theorem slots_wraps {k : Kind} (h : k.wraps = true) (cs : List Kind) : k.slots cs = 0 := by
  cases k <;> first | rfl | cases h

theorem slots_body {k : Kind} {l r : List Node} (h : k.bodyPos l r = true) (s : Node) (hs : s.kind ≠ .block) (sp : Span) :
    k.slots ((l ++ mk .block sp [s] :: r).map kind) + 1 ≤ k.slots ((l ++ s :: r).map kind) := by
  have hb : (mk .block sp [s]).kind = .block := rfl
  unfold Kind.bodyPos at h
  split at h
  · simp [Kind.slots, hs, hb]; omega
  · simp [Kind.slots, hs, hb]
  · simp [Kind.slots, hs, hb]
  · simp [Kind.slots, hs, hb]
  · cases h

/-- Steps use no more room than there was, and some for each counter. -/
theorem room_le {n q h n' q' h' o} (s : Steps cx n q h n' q' h' o) :
    n'.room + Counter.nodes * (o.length + q'.length + RegOp.asked h) ≤
      n.room + Counter.nodes * (q.length + RegOp.asked h') := by
  have hmul : ∀ a b : Nat, Counter.nodes * (a + b) = Counter.nodes * a + Counter.nodes * b := Nat.mul_add _
  induction s with
  | refl => simp
  | trans _ _ ih1 ih2 =>
    simp only [hmul, List.length_append] at ih1 ih2 ⊢
    omega
  | child k sp l r _ st ih =>
    rw [room_mk, room_mk, slots_child k st.root.1]
    simp only [List.map_append, List.map_cons, List.sum_append, List.sum_cons]
    omega
  | @insert s q h s' q' h' o k sp l r hk st ih =>
    have ho : (o.map room).sum ≤ Counter.nodes * o.length := by
      have h := st.out_counters
      clear st ih
      induction o with
      | nil => simp
      | cons x o ih =>
        obtain ⟨c, rfl⟩ := h x (by simp)
        have := ih fun y hy => h y (by simp [hy])
        simp only [List.map_cons, List.sum_cons, List.length_cons, hmul, room_counterStmt]
        simp only [Counter.nodes] at this ⊢
        omega
    rw [room_mk, room_mk, slots_list hk, slots_list hk]
    simp only [List.map_append, List.map_cons, List.sum_append, List.sum_cons, List.length_nil, hmul] at ih ⊢
    omega
  | lose sp l r st ih =>
    rw [room_mk, room_mk, slots_child _ st.root.1]
    simp only [List.map_append, List.map_cons, List.sum_append, List.sum_cons, List.length_nil, hmul] at ih ⊢
    omega
  | register n q h op hs =>
    rw [asked_concat]
    simp only [List.length_append, List.length_nil, hmul]
    omega
  | emit =>
    simp only [List.length_append, List.length_cons, List.length_nil, hmul]
    omega
  | headBlock =>
    rw [room_mk, room_mk]
    simp only [List.map_cons, List.sum_cons, room_counterStmt, List.length_append, List.length_cons, List.length_nil,
      Kind.slots, Counter.nodes]
    omega
  | headCase =>
    rw [room_mk, room_mk]
    simp only [List.map_cons, List.sum_cons, room_counterStmt, List.length_append, List.length_cons, List.length_nil,
      Kind.slots, Counter.nodes]
    omega
  | wrap k sp l e r q1 c q2 h hk =>
    rw [room_mk, room_mk, slots_wraps hk, slots_wraps hk]
    have : (wrapCounter c e).room = e.room + 3 := by simp [wrapCounter, counterExpr, room_mk, Kind.slots]; omega
    simp only [List.map_append, List.map_cons, List.sum_append, List.sum_cons, List.length_append, List.length_cons,
      List.length_nil, this, Counter.nodes]
    omega
  | truth k sp l e r q1 branch arm q2 h hk =>
    rw [room_mk, room_mk, slots_wraps hk, slots_wraps hk]
    have := room_wrapTruth branch arm e
    simp only [List.map_append, List.map_cons, List.sum_append, List.sum_cons, List.length_append, List.length_cons,
      List.length_nil, hmul]
    omega
  | body k sp l s r q h hk hs =>
    have := slots_body hk s hs Span.dummy
    rw [room_mk, room_mk]
    have hb : (mk .block Span.dummy [s]).room = s.room + 1 := by simp [room_mk, Kind.slots]; omega
    simp only [List.map_append, List.map_cons, List.sum_append, List.sum_cons, List.length_nil, hmul, hb] at this ⊢
    omega
  | addElse sp test cons alt q h hn =>
    have : 1 ≤ alt.room := by cases alt; rw [room_mk]; omega
    have hb : (mk .block Span.dummy []).kind = .block := rfl
    simp only [room_mk, List.map_cons, List.sum_cons, Kind.slots, List.map_nil, List.sum_nil, hb, List.length_nil, if_true, Nat.zero_add]
    omega
  | arrow a sp params e q h he =>
    have hb : ∀ ss, (mk .block Span.dummy ss).kind = .block := fun _ => rfl
    simp [room_mk, Kind.slots, hb, he]
    omega

end Steps

theorem numbered_length {A B : Type} (g : Nat → A → B) (l : List A) : (numbered g l).length = l.length := by
  simp [numbered]

/-- The counters a history asks for, by kind. -/
theorem asked_eq (h : List RegOp) (N : Nat) (hN : ∀ k l, RegOp.path k l ∈ h → k < N) :
    RegOp.asked h = (statements h).length + (functions h).length + ((List.range N).map fun k => (arms h k).length).sum := by
  induction h with
  | nil => 
    have : ∀ l : List Nat, (l.map fun k => (arms [] k).length).sum = 0 := by
      intro l
      induction l with
      | nil => rfl
      | cons a l ih => rw [List.map_cons, List.sum_cons, ih]; rfl
    rw [this]; rfl
  | cons op h ih =>
    have h1 := ih fun k l hk => hN k l (List.mem_cons_of_mem _ hk)
    have h2 : RegOp.asked (op :: h) = (match op with | .branch .. => 0 | _ => 1) + RegOp.asked h := by
      unfold RegOp.asked
      rw [List.countP_cons]
      cases op <;> simp <;> omega
    rw [h2, h1]
    cases op with
    | statement l => simp [statements, functions, arms]; omega
    | function n d l => simp [statements, functions, arms]; omega
    | branch t l g => simp [statements, functions, arms]
    | path k l =>
      have hk := hN k l (by simp)
      have h3 : ∀ L : List Nat, (L.map fun j => (arms (.path k l :: h) j).length).sum =
          L.count k + (L.map fun j => (arms h j).length).sum := by
        intro L
        induction L with
        | nil => rfl
        | cons a L ih =>
          simp only [List.map_cons, List.sum_cons, ih, List.count_cons]
          by_cases ha : k = a
          · subst ha; simp [arms]; omega
          · have : (a == k) = false := by simpa using fun h => ha h.symm
            simp [arms, ha, this]; omega
      have h4 : (List.range N).count k = 1 :=
        Nat.le_antisymm (List.nodup_iff_count.1 List.nodup_range k) (List.count_pos_iff.2 (List.mem_range.2 hk))
      rw [h3, h4]
      simp [statements, functions]; omega

namespace Outcome
variable {cx : Ctx} {path : String} {sm : Option SourceMap} {p p' : Node} {r : FileCoverage} {n : Node}
  {h : List RegOp}

theorem asked_le (o : Outcome cx path sm p p' r n h) : RegOp.asked h ≤ r.entries := by
  have hlt : ∀ k l, RegOp.path k l ∈ h → k < (RegOp.branches h).length := by
    intro k l hk
    obtain ⟨pre, post, rfl⟩ := List.append_of_mem hk
    have := o.legal pre k l post rfl
    rw [branches_append, List.length_append]
    omega
  have hk : ∀ k ∈ r.branchMap.keys, k < (RegOp.branches h).length := by
    intro k hk
    obtain ⟨v, hv⟩ := (IndexMap.mem_keys_iff _ k).1 hk
    rw [o.finished.branchMap] at hv
    by_contra hc
    rw [List.getElem?_eq_none (by omega)] at hv
    cases hv
  have hn : r.branchMap.NodupKeys := by
    refine List.Pairwise.imp ?_ o.finished.branchOrder
    intro a b hab
    exact Nat.ne_of_lt hab
  rw [asked_eq h _ hlt, FileCoverage.entries, o.finished.statementMap, o.finished.fnMap, numbered_length, numbered_length]
  have := IndexMap.sum_by_keys hn (fun b : Branch => b.locations.length) _ hk
  rw [this]
  have h1 : ∀ L : List Nat, (∀ k ∈ L, k < (RegOp.branches h).length) → (L.map fun k => (arms h k).length).sum =
      (L.map fun k => ((r.branchMap.get k).map fun b => b.locations.length).getD 0).sum := by
    intro L hL
    congr 1
    refine List.map_congr_left fun k hk => ?_
    rw [o.finished.branchMap, List.getElem?_eq_getElem (hL k hk)]
    simp only [Option.bind_some]
    split
    · next he => rw [he]; rfl
    · rfl
  rw [h1 _ fun k hk => List.mem_range.1 hk]
  omega

end Outcome
end Verif
