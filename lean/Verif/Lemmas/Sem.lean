import Verif.Lemmas.Clean
import Verif.Spec.Sem
/-
Two programs that are the same when their counters are deleted have the same executions.
-/
namespace Verif
namespace Sem
open Node

/-! ### Shapes -/

theorem unwrap_wrap {n e : Node} {c : Counter} (h : look n = .wrap c e) : unwrap n = unwrap e := by
  unfold look at h
  split at h <;> first | cases h | skip
  rw [unwrap]

theorem unwrap_truth {n e mid : Node} {c : Counter} (h : look n = .truth c e mid) : unwrap n = unwrap e := by
  unfold look at h
  split at h <;> first | cases h | skip
  rw [unwrap]

/-- Shapes that `unwrap` leaves alone. -/
def Shape.solid : Shape → Prop
  | .wrap _ _ => False
  | .truth _ _ _ => False
  | _ => True

theorem unwrap_solid {n : Node} (h : (look n).solid) : unwrap n = n := by
  unfold unwrap
  split
  · exact h.elim
  · exact h.elim
  · rfl

theorem unwrap_is_solid (n : Node) : (look (unwrap n)).solid := by
  fun_induction unwrap n with
  | case1 _ _ _ _ _ e ih => exact ih
  | case2 _ _ _ _ _ _ _ _ _ e _ _ _ ih => exact ih
  | case3 n h1 h2 =>
    unfold look
    split <;> first | trivial | skip
    · exact (h1 _ _ _ _ _ _ rfl).elim
    · exact (h2 _ _ _ _ _ _ _ _ _ _ _ _ _ rfl).elim

theorem unwrap_unwrap (n : Node) : unwrap (unwrap n) = unwrap n := unwrap_solid (unwrap_is_solid n)

theorem item_strip (n : Node) : isInjectedItem (strip n) = isInjectedItem n := by
  obtain ⟨k, sp, cs⟩ := n
  rw [strip_mk]
  simp only [isInjectedItem, Node.kind]
  congr 2
  by_cases hk : k = .exprStmt
  · subst hk
    simp only [tidy, Kind.wraps]
    cases cs with
    | nil => rfl
    | cons c cs =>
      cases cs with
      | nil =>
        obtain ⟨k', sp', cs'⟩ := c
        simp only [List.map, strip_mk]
        cases k' <;> rfl
      | cons d cs => simp [isCounterStmt]
  · have : ∀ cs, isCounterStmt (mk k sp cs) = false := by
      intro cs
      unfold isCounterStmt
      split
      · next h => cases h; exact (hk rfl).elim
      · rfl
    rw [this, this]

/-- The shape after deletion of counters. -/
def Shape.strip : Shape → Shape
  | .counter c => .counter c
  | .wrap c e => .wrap c (Node.strip e)
  | .truth c e mid => .truth c (Node.strip e) (Node.strip mid)
  | .list ss => .list ((ss.map Node.strip).filter fun s => !isInjectedItem s)
  | .plain => .plain

theorem strip_nowrap {k : Kind} (sp : Span) (cs : List Node) (h : ∀ cs, tidy k cs = cs) :
    strip (mk k sp cs) = mk k sp (cs.map strip) := by rw [strip_mk, h]

theorem look_strip (n : Node) : look (Node.strip n) = (look n).strip := by
  obtain ⟨k, sp, cs⟩ := n
  cases k
  case paren =>
    rw [strip_nowrap _ _ fun _ => rfl]
    match cs with
    | [] => rfl
    | a :: b :: cs => simp [look, Shape.strip]
    | [mk k' sp' cs'] =>
      cases k'
      case seq =>
        rw [List.map, strip_nowrap _ _ fun _ => rfl]
        match cs' with
        | [] => rfl
        | [a] => simp [look, Shape.strip]
        | a :: b :: c :: cs' => simp [look, Shape.strip]
        | [mk k2 sp2 cs2, e] => cases k2 <;> simp [look, Shape.strip, strip_mk]
      all_goals simp [look, Shape.strip, strip_mk]
  case seq =>
    rw [strip_nowrap _ _ fun _ => rfl]
    match cs with
    | [] => rfl
    | [a] => simp [look, Shape.strip]
    | a :: b :: c :: cs' => simp [look, Shape.strip]
    | [mk k2 sp2 cs2, mk k3 sp3 cs3] =>
      cases k2
      case counter c =>
        cases k3
        case seq =>
          simp only [List.map]
          rw [strip_nowrap _ cs3 fun _ => rfl, strip_nowrap _ cs2 fun _ => rfl]
          match cs3 with
          | [] => rfl
          | [a] => simp [look, Shape.strip]
          | [a, b] => simp [look, Shape.strip]
          | a :: b :: c :: d :: cs3 => simp [look, Shape.strip]
          | [mk k4 sp4 cs4, mid, mk k5 sp5 cs5] =>
            cases k4
            case assign op =>
              simp only [List.map]
              rw [strip_nowrap _ cs4 fun _ => rfl]
              match cs4 with
              | [] => simp [look, Shape.strip]
              | [a] => simp [look, Shape.strip]
              | a :: b :: c :: cs4 => simp [look, Shape.strip]
              | [mk k6 sp6 cs6, e] =>
                cases k5
                case temp t =>
                  cases k6
                  case temp t' =>
                    cases t <;> cases t' <;> simp [look, Shape.strip, strip_mk]
                  all_goals simp [look, Shape.strip, strip_mk]
                all_goals simp [look, Shape.strip, strip_mk]
            all_goals simp [look, Shape.strip, strip_mk]
        all_goals simp [look, Shape.strip, strip_mk]
      all_goals simp [look, Shape.strip, strip_mk]
  all_goals simp [look, Shape.strip, strip_mk, tidy]

theorem strip_unwrap (n : Node) : unwrap (strip n) = strip (unwrap n) := by
  fun_induction unwrap n with
  | case1 sp sp' c sp'' cs e ih =>
    rw [← ih]
    exact unwrap_wrap (c := c) (by rw [look_strip]; rfl)
  | case2 sp c sp' cs sp'' op sp3 sp4 cs' e mid sp5 cs'' ih =>
    rw [← ih]
    exact unwrap_truth (c := c) (mid := strip mid) (by rw [look_strip]; rfl)
  | case3 n h1 h2 =>
    refine unwrap_solid ?_
    rw [look_strip]
    have := unwrap_is_solid n
    rw [show unwrap n = n by unfold unwrap; split <;> first | rfl | (exfalso; solve_by_elim)] at this
    revert this
    cases look n <;> simp [Shape.strip, Shape.solid]

/-! ### Parts -/

theorem strip_block (sp : Span) (ss : List Node) :
    strip (mk .block sp ss) = mk .block sp ((ss.map strip).filter fun s => !isInjectedItem s) := by
  rw [strip_mk]; rfl

/-- A body as a block. -/
def toBlock (b : Node) : Node := if b.kind = .block then b else mk .block Span.dummy [b]

theorem strip_toBlock (b : Node) : strip (toBlock b) = asBlock (strip b) := by
  unfold toBlock
  by_cases h : b.kind = .block
  · rw [if_pos h]
    obtain ⟨k, sp, cs⟩ := b
    cases h
    rw [strip_block]; rfl
  · rw [if_neg h, strip_block, asBlock_of_ne (by rw [strip_kind]; exact h)]
    simp only [List.map]
    by_cases hi : isInjectedItem (strip b) = true <;> simp [hi]

theorem toBlock_asBlock (b : Node) : toBlock (asBlock b) = asBlock b := by
  unfold asBlock
  split <;> rfl

theorem mapLast_mapLast (f g : Node → Node) (l : List Node) :
    mapLast f (mapLast g l) = mapLast (fun x => f (g x)) l := by
  induction l with
  | nil => rfl
  | cons a l ih =>
    cases l with
    | nil => rfl
    | cons b l =>
      have hne : ∀ (g : Node → Node), ∃ c l', mapLast g (b :: l) = c :: l' := by
        intro g
        cases l with
        | nil => exact ⟨_, _, rfl⟩
        | cons d l => exact ⟨_, _, rfl⟩
      obtain ⟨c, l', hc⟩ := hne g
      have h1 : mapLast g (a :: b :: l) = a :: mapLast g (b :: l) := rfl
      have h2 : mapLast (fun x => f (g x)) (a :: b :: l) = a :: mapLast (fun x => f (g x)) (b :: l) := rfl
      rw [h1, h2, ← ih, hc]
      rfl

theorem map_mapLast (f g h : Node → Node) (hf : ∀ x, f (g x) = h (f x)) (l : List Node) :
    (mapLast g l).map f = mapLast h (l.map f) := by
  induction l with
  | nil => rfl
  | cons a l ih =>
    cases l with
    | nil => simp [mapLast, hf]
    | cons b l =>
      have h1 : mapLast g (a :: b :: l) = a :: mapLast g (b :: l) := rfl
      rw [h1, List.map_cons, ih]
      rfl

theorem kids_loop (k : LoopKind) (sp : Span) (cs : List Node) : kids (mk (.loop k) sp cs) = mapLast toBlock cs :=
  rfl

/-- Kinds of nodes whose children are their parts, as they are. -/
def free : Kind → Bool
  | .block | .module | .script | .switchCase | .ifStmt | .loop _ | .withStmt | .arrow _ => false
  | _ => true

theorem kids_free {k : Kind} (h : free k = true) (sp : Span) (cs : List Node) : kids (mk k sp cs) = cs := by
  cases k <;> first | rfl | cases h

theorem tidy_free {k : Kind} (h : free k = true) (hw : k.wraps = false) (cs : List Node) : tidy k cs = cs := by
  unfold tidy
  split <;> first | cases h | skip
  rw [hw]; rfl

theorem free_of_wraps {k : Kind} (h : k.wraps = true) : free k = true := by
  cases k <;> first | rfl | cases h

/-- Deleting the counters of a node of a kind whose children are not wrapped. -/
theorem kids_strip_of_not {n : Node} (h : n.kind.wraps = false) : kids (strip n) = (kids n).map strip := by
  obtain ⟨k, sp, cs⟩ := n
  by_cases hk : free k = true
  · rw [strip_mk, kids_free hk, kids_free hk, tidy_free hk h]
  · have hk : free k = false := by cases hf : free k <;> simp_all
    rw [strip_mk]
    unfold free at hk
    split at hk <;> first | cases hk | skip
    · rfl
    · rfl
    · rfl
    · cases cs with
      | nil => rfl
      | cons t ss => simp [tidy, kids, strip_block]
    · match cs with
      | [] => rfl
      | [a] => rfl
      | [a, b] => rfl
      | [test, cons, alt] =>
        have h1 : kids (mk .ifStmt sp [test, cons, alt]) =
            [test, toBlock cons, if alt.isNone then mk .block Span.dummy [] else toBlock alt] := rfl
        have h2 : kids (mk .ifStmt sp [strip test, asBlock (strip cons), asElse (strip alt)]) =
            [strip test, toBlock (asBlock (strip cons)),
              if (asElse (strip alt)).isNone then mk .block Span.dummy [] else toBlock (asElse (strip alt))] := rfl
        have h3 : (asElse (strip alt)).isNone = false := by
          unfold asElse
          split
          · rfl
          · unfold asBlock; split <;> rfl
        simp only [List.map, tidy]
        rw [h2, h1, h3]
        simp only [List.map, toBlock_asBlock, strip_toBlock, asElse, strip_isNone]
        cases alt.isNone
        · simp [strip_toBlock, toBlock_asBlock]
        · simp [strip_block, toBlock, Node.kind]
      | a :: b :: c :: d :: cs => simp [tidy, kids, tidyBodies, Kind.wraps]
    · rw [kids_loop, kids_loop, map_mapLast strip toBlock asBlock strip_toBlock]
      simp only [tidy]
      rw [mapLast_mapLast]
      congr 1
      funext x
      exact toBlock_asBlock x
    · match cs with
      | [] => rfl
      | [a] => rfl
      | [obj, body] =>
        have h1 : kids (mk .withStmt sp [obj, body]) = [obj, toBlock body] := rfl
        have h2 : kids (mk .withStmt sp [strip obj, asBlock (strip body)]) =
            [strip obj, toBlock (asBlock (strip body))] := rfl
        simp only [List.map, tidy]
        rw [h1, h2, toBlock_asBlock]
        simp [strip_toBlock]
      | a :: b :: c :: cs => simp [tidy, kids, tidyBodies, Kind.wraps]
    · match cs with
      | [] => rfl
      | [a] => rfl
      | [params, body] =>
        simp only [List.map, tidy, kids, tidyBodies]
        have : asArrowBody (asArrowBody (strip body)) = strip (asArrowBody body) := by
          by_cases hb : body.kind = .block
          · obtain ⟨k, sp, cs⟩ := body
            cases hb
            simp [asArrowBody, strip_block]
          · rw [asArrowBody_of_ne hb, asArrowBody_of_ne (e := strip body) (by rw [strip_kind]; exact hb)]
            simp only [asArrowBody, strip_block, strip_span]
            rfl
        rw [this]
      | a :: b :: c :: cs => simp [tidy, kids, tidyBodies, Kind.wraps]

/-- Deleting the counters of a node whose children may be wrapped. -/
theorem kids_strip_of_wraps {n : Node} (h : n.kind.wraps = true) :
    kids n = n.children ∧ kids (strip n) = n.children.map fun c => unwrap (strip c) := by
  obtain ⟨k, sp, cs⟩ := n
  have hf : free k = true := free_of_wraps h
  have h : k.wraps = true := h
  refine ⟨kids_free hf _ _, ?_⟩
  rw [strip_mk, kids_free hf, tidy_wraps h]
  simp [Node.children]

theorem kids_strip (n : Node) : (kids (strip n)).map unwrap = (kids n).map fun c => strip (unwrap c) := by
  cases h : n.kind.wraps with
  | false =>
    rw [kids_strip_of_not h, List.map_map]
    exact List.map_congr_left fun c _ => strip_unwrap c
  | true =>
    obtain ⟨h1, h2⟩ := kids_strip_of_wraps h
    rw [h2, h1, List.map_map]
    refine List.map_congr_left fun c _ => ?_
    simp only [Function.comp, unwrap_unwrap, strip_unwrap]

/-! ### Faces -/

theorem isFnDef_strip (n : Node) : isFnDef (strip n) = isFnDef n := by
  induction n using Node.ind with
  | h k sp cs ih =>
    rw [strip_mk]
    cases k
    case arrow => rfl
    case fnExpr =>
      cases cs with
      | nil => rfl
      | cons i cs => simp [tidy, Kind.wraps, isFnDef, strip_isNone]
    case classExpr =>
      cases cs with
      | nil => rfl
      | cons i cs => simp [tidy, Kind.wraps, isFnDef, strip_isNone]
    case paren =>
      match cs with
      | [] => rfl
      | [e] => simpa [tidy, Kind.wraps, isFnDef] using ih e (by simp)
      | a :: b :: cs => simp [tidy, Kind.wraps, isFnDef]
    all_goals simp [isFnDef]

theorem directive_strip (s : Node) : directive? (strip s) = directive? s := by
  obtain ⟨k, sp, cs⟩ := s
  rw [strip_mk]
  cases k
  case exprStmt =>
    match cs with
    | [] => rfl
    | [mk k' sp' cs'] => cases k' <;> rfl
    | a :: b :: cs => simp [directive?, tidy, Kind.wraps]
  all_goals simp [directive?]

theorem directivesOf_strip (ss : List Node) : directivesOf (ss.map strip) = directivesOf ss := by
  induction ss with
  | nil => rfl
  | cons s ss ih => simp only [List.map, directivesOf, directive_strip, ih]

theorem filter_strip (ss : List Node) : (ss.map strip).filter (fun s => !isInjectedItem s) =
    (ss.filter fun s => !isInjectedItem s).map strip := by
  rw [List.filter_map]
  congr 1
  exact List.filter_congr fun s _ => by simp [item_strip]

theorem directivesOf_code (n : Node) : directivesOf (codeOf (strip n)) =
    directivesOf ((codeOf n).filter fun s => !isInjectedItem s) := by
  have hf : ∀ ss : List Node, directivesOf ((ss.map strip).filter fun s => !isInjectedItem s) =
      directivesOf (ss.filter fun s => !isInjectedItem s) := by
    intro ss
    rw [filter_strip, directivesOf_strip]
  obtain ⟨k, sp, cs⟩ := n
  rw [strip_mk]
  cases k
  case module => exact hf cs
  case script => exact hf cs
  case function a =>
    match cs with
    | [] => rfl
    | [x] => rfl
    | [x, y] => rfl
    | [x, y, mk k' sp' cs'] =>
      cases k'
      case block => simpa [tidy, Kind.wraps, codeOf, strip_block, asArrowBody] using hf cs'
      all_goals simp [tidy, Kind.wraps, codeOf, strip_mk]
    | x :: y :: z :: w :: cs => simp [tidy, Kind.wraps, codeOf]
  case arrow a =>
    match cs with
    | [] => rfl
    | [x] => rfl
    | [x, mk k' sp' cs'] =>
      cases k'
      case block => simpa [tidy, Kind.wraps, codeOf, strip_block, asArrowBody] using hf cs'
      all_goals simp [tidy, codeOf, strip_mk, asArrowBody, directivesOf, directive?]
    | x :: y :: z :: cs => simp [tidy, Kind.wraps, codeOf]
  case getterProp =>
    match cs with
    | [] => rfl
    | [x] => rfl
    | [x, mk k' sp' cs'] =>
      cases k'
      case block => simpa [tidy, Kind.wraps, codeOf, strip_block, asArrowBody] using hf cs'
      all_goals simp [tidy, Kind.wraps, codeOf, strip_mk]
    | x :: y :: z :: cs => simp [tidy, Kind.wraps, codeOf]
  case setterProp =>
    match cs with
    | [] => rfl
    | [x] => rfl
    | [x, y] => rfl
    | [x, y, z] => rfl
    | [x, y, z, mk k' sp' cs'] =>
      cases k'
      case block => simpa [tidy, Kind.wraps, codeOf, strip_block, asArrowBody] using hf cs'
      all_goals simp [tidy, Kind.wraps, codeOf, strip_mk]
    | x :: y :: z :: w :: u :: cs => simp [tidy, Kind.wraps, codeOf]
  all_goals simp [codeOf, directivesOf]

theorem face_strip {n : Node} (h : faithfulAt n = true) : face (strip n) = face n := by
  unfold faithfulAt at h
  rw [Bool.and_eq_true] at h
  obtain ⟨h1, h2⟩ := h
  have h2 := of_decide_eq_true h2
  have hlen : (kids (strip n)).length = (kids n).length := by
    have := congrArg List.length (kids_strip n)
    simpa using this
  have hdef : (if names n.kind then (kids (strip n)).map isFnDef else []) =
      if names n.kind then (kids n).map isFnDef else [] := by
    split
    · next hn =>
      cases hw : n.kind.wraps with
      | false =>
        rw [kids_strip_of_not hw, List.map_map]
        exact List.map_congr_left fun c _ => isFnDef_strip c
      | true =>
        obtain ⟨e1, e2⟩ := kids_strip_of_wraps hw
        rw [e2, e1, List.map_map]
        refine List.map_congr_left fun c hc => ?_
        rw [hn, hw] at h1
        have h1 : ∀ c ∈ n.children, isFnDef c = isFnDef (unwrap c) := by simpa using h1
        simp only [Function.comp, strip_unwrap, isFnDef_strip]
        exact (h1 c hc).symm
    · rfl
  unfold face
  rw [strip_kind, strip_span, hlen, hdef, directivesOf_code, h2]

/-! ### Faithfulness -/

theorem faithfulList_eq (cs : List Node) : faithfulList cs = cs.all faithful := by
  induction cs with
  | nil => rfl
  | cons c cs ih => simp [faithfulList, ih]

theorem faithful_mk {k : Kind} {sp : Span} {cs : List Node} :
    faithful (mk k sp cs) = true ↔ faithfulAt (mk k sp cs) = true ∧ ∀ c ∈ cs, faithful c = true := by
  rw [faithful, faithfulList_eq, Bool.and_eq_true, List.all_eq_true]

theorem faithful_at {n : Node} (h : faithful n = true) : faithfulAt n = true := by
  cases n; exact (faithful_mk.1 h).1

theorem faithful_child {n c : Node} (h : faithful n = true) (hc : c ∈ n.children) : faithful c = true := by
  cases n; exact (faithful_mk.1 h).2 c hc

theorem faithful_block {sp : Span} {ss : List Node} (h : ∀ c ∈ ss, faithful c = true) :
    faithful (mk .block sp ss) = true := faithful_mk.2 ⟨rfl, h⟩

theorem faithful_toBlock {b : Node} (h : faithful b = true) : faithful (toBlock b) = true := by
  unfold toBlock
  split
  · exact h
  · exact faithful_block (by simpa using h)

theorem faithful_kids {n : Node} (h : faithful n = true) : ∀ c ∈ kids n, faithful c = true := by
  have hc := fun c => faithful_child (c := c) h
  obtain ⟨k, sp, cs⟩ := n
  simp only [Node.children] at hc
  have hself : ∀ c ∈ cs, faithful c = true := fun c h => hc c h
  by_cases hk : free k = true
  · rw [kids_free hk]; exact hself
  · have hk : free k = false := by cases hf : free k <;> simp_all
    unfold free at hk
    split at hk <;> first | cases hk | skip
    · intro c hc; cases hc
    · intro c hc; cases hc
    · intro c hc; cases hc
    · cases cs with
      | nil => exact hself
      | cons t ss =>
        intro c hc
        rcases List.mem_cons.1 hc with rfl | hc
        · exact hself _ (by simp)
        · cases List.mem_singleton.1 hc
          exact faithful_block fun c hc => hself c (by simp [hc])
    · match cs with
      | [] => exact hself
      | [a] => exact hself
      | [a, b] => exact hself
      | [test, cons, alt] =>
        intro c hc
        have h1 : kids (mk .ifStmt sp [test, cons, alt]) =
            [test, toBlock cons, if alt.isNone then mk .block Span.dummy [] else toBlock alt] := rfl
        rw [h1] at hc
        simp only [List.mem_cons, List.not_mem_nil, or_false] at hc
        rcases hc with rfl | rfl | rfl
        · exact hself _ (by simp)
        · exact faithful_toBlock (hself _ (by simp))
        · split
          · exact faithful_block (by simp)
          · exact faithful_toBlock (hself _ (by simp))
      | a :: b :: c :: d :: cs => exact hself
    · rw [kids_loop]
      intro c hc
      rcases mapLast_mem hc with hc | ⟨y, hy, rfl⟩
      · exact hself _ hc
      · exact faithful_toBlock (hself _ hy)
    · match cs with
      | [] => exact hself
      | [a] => exact hself
      | [obj, body] =>
        intro c hc
        have h1 : kids (mk .withStmt sp [obj, body]) = [obj, toBlock body] := rfl
        rw [h1] at hc
        simp only [List.mem_cons, List.not_mem_nil, or_false] at hc
        rcases hc with rfl | rfl
        · exact hself _ (by simp)
        · exact faithful_toBlock (hself _ (by simp))
      | a :: b :: c :: cs => exact hself
    · match cs with
      | [] => exact hself
      | [a] => exact hself
      | [params, body] =>
        intro c hc
        simp only [kids, tidyBodies, List.mem_cons, List.not_mem_nil, or_false] at hc
        rcases hc with rfl | rfl
        · exact hself _ (by simp)
        · have hb := hself body (by simp)
          unfold asArrowBody
          split
          · exact hb
          · refine faithful_block ?_
            intro c hc
            cases List.mem_singleton.1 hc
            exact faithful_mk.2 ⟨rfl, by simpa using hb⟩
      | a :: b :: c :: cs => exact hself

theorem faithful_wrap {n e : Node} {c : Counter} (h : faithful n = true) (hl : look n = .wrap c e) :
    faithful e = true := by
  unfold look at hl
  split at hl <;> first | cases hl | skip
  exact faithful_child (faithful_child h (List.mem_singleton.2 rfl)) (by simp [Node.children])

theorem faithful_truth {n e mid : Node} {c : Counter} (h : faithful n = true) (hl : look n = .truth c e mid) :
    faithful e = true := by
  unfold look at hl
  split at hl <;> first | cases hl | skip
  have h1 := (faithful_mk.1 h).2 _ (List.mem_cons_of_mem _ (List.mem_singleton.2 rfl))
  have h2 := (faithful_mk.1 h1).2 _ (List.mem_cons_self ..)
  exact (faithful_mk.1 h2).2 _ (List.mem_cons_of_mem _ (List.mem_singleton.2 rfl))

theorem faithful_list {n : Node} {ss : List Node} (h : faithful n = true) (hl : look n = .list ss) :
    ∀ s ∈ ss, faithful s = true := by
  unfold look at hl
  split at hl <;> first | cases hl | skip
  all_goals exact (faithful_mk.1 h).2

theorem faithful_unwrap {n : Node} (h : faithful n = true) : faithful (unwrap n) = true := by
  fun_induction unwrap n with
  | case1 sp sp' c sp'' cs e ih => exact ih (faithful_wrap (c := c) h rfl)
  | case2 sp c sp' cs sp'' op sp3 sp4 cs' e mid sp5 cs'' ih => exact ih (faithful_truth (c := c) (mid := mid) h rfl)
  | case3 n h1 h2 => exact h

/-! ### Simulation -/

section
variable {V A : Type} {solid : V → Bool}

theorem visible_append (a b : List (Ev V A)) : visible (a ++ b) = visible a ++ visible b := by
  simp [visible]

theorem visible_count (c : Counter) (tr : List (Ev V A)) : visible (.count c :: tr) = visible tr := rfl

theorem visible_present (f : Face) (tr : List (Ev V A)) :
    visible (.present f :: tr) = .present f :: visible tr := rfl

theorem visible_pick (h j : Nat) (f : Face) (tr : List (Ev V A)) :
    visible (.pick h j f :: tr) = .pick h j f :: visible tr := rfl

theorem visible_got (o : Outcome V A) (tr : List (Ev V A)) :
    visible (.got o :: tr) = .got o :: visible tr := rfl

theorem visible_counts (p : Bool) (cs : List Counter) :
    visible (if p then cs.map .count else [] : List (Ev V A)) = [] := by
  split
  · induction cs with
    | nil => rfl
    | cons c cs ih => exact ih
  · rfl

/-- Nodes that are the same up to counters have the same face. -/
theorem face_same {a b : Node} (h : strip a = strip b) (ha : faithful a = true) (hb : faithful b = true) :
    face a = face b := by
  rw [← face_strip (faithful_at ha), h, face_strip (faithful_at hb)]

/-- Counters around an expression are invisible. -/
theorem run_unwrap {st st' : List Node} {p : Node} {tr : List (Ev V A)} {o : Outcome V A}
    (h : Run solid st (.node (unwrap p)) tr o st') :
    ∃ tr', visible tr' = visible tr ∧ Run solid st (.node p) tr' o st' := by
  fun_induction unwrap p with
  | case1 sp sp' c sp'' cs e ih =>
    obtain ⟨tr', h1, h2⟩ := ih h
    exact ⟨_, (visible_count _ _).trans h1, .wrap (c := c) (e := e) rfl h2⟩
  | case2 sp c sp' cs sp'' op sp3 sp4 cs' e mid sp5 cs'' ih =>
    obtain ⟨tr', h1, h2⟩ := ih h
    cases o with
    | normal v =>
      refine ⟨_, ?_, .truth (c := c) (e := e) (mid := mid) rfl h2⟩
      rw [visible_count, visible_append, visible_counts, List.append_nil, h1]
    | abrupt a => exact ⟨_, (visible_count _ _).trans h1, .truthEnd (c := c) (e := e) (mid := mid) rfl h2 rfl⟩
    | cut => exact ⟨_, (visible_count _ _).trans h1, .truthEnd (c := c) (e := e) (mid := mid) rfl h2 rfl⟩
  | case3 n h1 h2 => exact ⟨tr, rfl, h⟩

/-- The statements that are not injected. -/
def own (ss : List Node) : List Node := (ss.map strip).filter fun s => !isInjectedItem s

theorem own_cons_injected {s : Node} {ss : List Node} (h : isInjectedItem s = true) : own (s :: ss) = own ss := by
  simp [own, item_strip, h]

theorem own_cons {s : Node} {ss : List Node} (h : isInjectedItem s = false) :
    own (s :: ss) = strip s :: own ss := by
  simp [own, item_strip, h]

/-- Injected statements are invisible. -/
theorem run_skip {st st' : List Node} {s : Node} {ss : List Node} {tr : List (Ev V A)} {o : Outcome V A}
    (hs : isInjectedItem s = true) (h : Run solid st (.list ss) tr o st') :
    ∃ tr', visible tr' = visible tr ∧ Run solid st (.list (s :: ss)) tr' o st' := by
  unfold isInjectedItem at hs
  by_cases hc : isCounterStmt s = true
  · unfold isCounterStmt at hc
    split at hc
    · exact ⟨_, visible_count _ _, .count h⟩
    · cases hc
  · simp only [hc, Bool.false_or, Bool.or_eq_true, decide_eq_true_eq] at hs
    exact ⟨tr, rfl, .setup hs h⟩

/-- Where the first statement that is not injected stands. -/
theorem own_split {x : Node} {xs ss : List Node} (h : x :: xs = own ss) :
    ∃ pre s rest, ss = pre ++ s :: rest ∧ (∀ x ∈ pre, isInjectedItem x = true) ∧ isInjectedItem s = false ∧
      strip s = x ∧ own rest = xs := by
  induction ss with
  | nil => cases h
  | cons y ss ih =>
    cases hx : isInjectedItem y with
    | true =>
      rw [own_cons_injected hx] at h
      obtain ⟨pre, s2, rest, e1, e2, e3⟩ := ih h
      refine ⟨y :: pre, s2, rest, by rw [e1]; rfl, ?_, e3⟩
      intro z hz
      rcases List.mem_cons.1 hz with rfl | hz
      · exact hx
      · exact e2 z hz
    | false =>
      rw [own_cons hx] at h
      injection h with h1 h2
      exact ⟨[], y, ss, rfl, by simp, hx, h1.symm, h2.symm⟩

theorem run_skips {st st' : List Node} {pre ss : List Node} {tr : List (Ev V A)} {o : Outcome V A}
    (hp : ∀ x ∈ pre, isInjectedItem x = true) (h : Run solid st (.list ss) tr o st') :
    ∃ tr', visible tr' = visible tr ∧ Run solid st (.list (pre ++ ss)) tr' o st' := by
  induction pre with
  | nil => exact ⟨tr, rfl, h⟩
  | cons x pre ih =>
    obtain ⟨tx, g1, g2⟩ := ih fun y hy => hp y (List.mem_cons_of_mem _ hy)
    obtain ⟨ty, g3, g4⟩ := run_skip (hp x (by simp)) g2
    exact ⟨ty, g3.trans g1, g4⟩

theorem run_own_nil {st : List Node} {ss : List Node} (ho : own ss = []) :
    ∃ tr', visible tr' = [] ∧ Run solid (A := A) st (.list ss) tr' (.normal none) st := by
  induction ss with
  | nil => exact ⟨[], rfl, .nil⟩
  | cons s ss ih =>
    cases hi : isInjectedItem s with
    | true =>
      rw [own_cons_injected hi] at ho
      obtain ⟨tr', h1, h2⟩ := ih ho
      obtain ⟨tr2, h3, h4⟩ := run_skip hi h2
      exact ⟨tr2, h3.trans h1, h4⟩
    | false =>
      rw [own_cons hi] at ho
      cases ho

theorem hoisted_strip (ss : List Node) : (hoisted ss).map strip = hoisted (own ss) := by
  induction ss with
  | nil => rfl
  | cons s ss ih =>
    cases hi : isInjectedItem s with
    | true =>
      rw [own_cons_injected hi, ← ih]
      have : (s.kind = .fnDecl || s.kind = .exportDecl || s.kind = .exportDefault) = false := by
        obtain ⟨k, sp, cs⟩ := s
        cases k <;> first | rfl | simp [isInjectedItem, isCounterStmt, Node.kind] at hi
      simp [hoisted, this]
    | false =>
      rw [own_cons hi]
      unfold hoisted at ih ⊢
      simp only [List.filter_cons, strip_kind]
      split
      · rw [List.map_cons, ih]
      · exact ih

/-- The same task, up to counters. -/
def Task.Same : Task → Task → Prop
  | .node a, .node b => strip (unwrap a) = strip (unwrap b)
  | .list a, .list b => own a = own b
  | .turn, .turn => True
  | _, _ => False

/-- All nodes of a task are faithful. -/
def Task.faithful : Task → Prop
  | .node n => Sem.faithful n = true
  | .list ss => ∀ s ∈ ss, Sem.faithful s = true
  | .turn => True

/-- Every node is faithful. -/
def AllFaithful (st : List Node) : Prop := ∀ n ∈ st, faithful n = true

theorem hoisted_sub {ss : List Node} {s : Node} (h : s ∈ hoisted ss) : s ∈ ss := (List.mem_filter.1 h).1

theorem AllFaithful.append {a b : List Node} (ha : AllFaithful a) (hb : AllFaithful b) : AllFaithful (a ++ b) := by
  intro n hn
  rcases List.mem_append.1 hn with hn | hn
  · exact ha n hn
  · exact hb n hn

theorem solid_of_look {n : Node} {s : Shape} (h : look n = s) (hs : s.solid) : unwrap n = n :=
  unwrap_solid (by rw [h]; exact hs)

/-- Executions of a task, and of the same task with other counters. -/
theorem simulate {st st' : List Node} {t : Task} {tr : List (Ev V A)} {o : Outcome V A}
    (h : Run solid st t tr o st') : ∀ {st2 t2}, t.Same t2 → st.map strip = st2.map strip → t.faithful →
      t2.faithful → AllFaithful st → AllFaithful st2 →
      ∃ tr' st2', visible tr' = visible tr ∧ Run solid st2 t2 tr' o st2' ∧ st'.map strip = st2'.map strip ∧
        AllFaithful st' ∧ AllFaithful st2' := by
  induction h with
  | cut st t =>
    intro st2 t2 _ hst _ _ f1 f2
    exact ⟨[], st2, rfl, .cut _ _, hst, f1, f2⟩
  | @counter st n c v hl =>
    intro st2 t2 hs hst _ _ f1 f2
    cases t2 with
    | node p =>
      have hs : strip (unwrap n) = strip (unwrap p) := hs
      rw [solid_of_look hl trivial] at hs
      have hlp : look (unwrap p) = .counter c := by
        have h1 := look_strip n
        rw [hs, look_strip, hl] at h1
        revert h1
        cases look (unwrap p) <;> simp [Shape.strip]
      obtain ⟨tr', h1, h2⟩ := run_unwrap (.counter (V := V) (A := A) (solid := solid) (st := st2) (v := v) hlp)
      exact ⟨tr', st2, h1, h2, hst, f1, f2⟩
    | list _ => exact hs.elim
    | turn => exact hs.elim
  | @wrap st n c e tr o st' hl _ ih =>
    intro st2 t2 hs hst h1 h2 f1 f2
    cases t2 with
    | node p =>
      have hs : strip (unwrap n) = strip (unwrap p) := hs
      rw [unwrap_wrap hl] at hs
      exact ih (t2 := .node p) hs hst (faithful_wrap h1 hl) h2 f1 f2
    | list _ => exact hs.elim
    | turn => exact hs.elim
  | @truth st n c e mid tr v st' hl _ ih =>
    intro st2 t2 hs hst h1 h2 f1 f2
    cases t2 with
    | node p =>
      have hs : strip (unwrap n) = strip (unwrap p) := hs
      rw [unwrap_truth hl] at hs
      obtain ⟨tr', st2', e1, e2⟩ := ih (t2 := .node p) hs hst (faithful_truth h1 hl) h2 f1 f2
      refine ⟨tr', st2', ?_, e2⟩
      rw [visible_count, visible_append, visible_counts, List.append_nil, e1]
    | list _ => exact hs.elim
    | turn => exact hs.elim
  | @truthEnd st n c e mid tr o st' hl _ _ ih =>
    intro st2 t2 hs hst h1 h2 f1 f2
    cases t2 with
    | node p =>
      have hs : strip (unwrap n) = strip (unwrap p) := hs
      rw [unwrap_truth hl] at hs
      exact ih (t2 := .node p) hs hst (faithful_truth h1 hl) h2 f1 f2
    | list _ => exact hs.elim
    | turn => exact hs.elim
  | @block st n ss tr o st1 tr' o' st' hl _ ho _ ih1 ih2 =>
    intro st2 t2 hs hst h1 h2 f1 f2
    cases t2 with
    | node p =>
      have hs : strip (unwrap n) = strip (unwrap p) := hs
      rw [solid_of_look hl trivial] at hs
      obtain ⟨ss2, hlp, hown⟩ : ∃ ss2, look (unwrap p) = .list ss2 ∧ own ss = own ss2 := by
        have h1 := look_strip n
        rw [hs, look_strip, hl] at h1
        revert h1
        cases hlp : look (unwrap p) <;> simp [Shape.strip]
        intro h; exact h.symm
      have hp := faithful_unwrap h2
      obtain ⟨ta, sa, e1, e2, e3, e4, e5⟩ := ih1 (t2 := .list ss2) (st2 := st2 ++ unwrap p :: hoisted ss2) hown
        (by simp only [List.map_append, List.map_cons, hst, hs, hoisted_strip, hown])
        (faithful_list h1 hl) (faithful_list hp hlp)
        (f1.append (by
          intro x hx
          rcases List.mem_cons.1 hx with rfl | hx
          · exact h1
          · exact faithful_list h1 hl x (hoisted_sub hx)))
        (f2.append (by
          intro x hx
          rcases List.mem_cons.1 hx with rfl | hx
          · exact hp
          · exact faithful_list hp hlp x (hoisted_sub hx)))
      obtain ⟨tb, sb, e6, e7, e8⟩ := ih2 (t2 := .turn) trivial e3 trivial trivial e4 e5
      obtain ⟨tc, e9, e10⟩ := run_unwrap (Run.block hlp e2 ho e7)
      refine ⟨tc, sb, ?_, e10, e8⟩
      rw [e9, visible_present, visible_present, visible_append, visible_append, visible_got, visible_got, e1, e6,
        ← face_strip (faithful_at h1), hs, face_strip (faithful_at hp)]
    | list _ => exact hs.elim
    | turn => exact hs.elim
  | @blockCut st n ss tr st' hl _ ih1 =>
    intro st2 t2 hs hst h1 h2 f1 f2
    cases t2 with
    | node p =>
      have hs : strip (unwrap n) = strip (unwrap p) := hs
      rw [solid_of_look hl trivial] at hs
      obtain ⟨ss2, hlp, hown⟩ : ∃ ss2, look (unwrap p) = .list ss2 ∧ own ss = own ss2 := by
        have h1 := look_strip n
        rw [hs, look_strip, hl] at h1
        revert h1
        cases hlp : look (unwrap p) <;> simp [Shape.strip]
        intro h; exact h.symm
      have hp := faithful_unwrap h2
      obtain ⟨ta, sa, e1, e2, e3⟩ := ih1 (t2 := .list ss2) (st2 := st2 ++ unwrap p :: hoisted ss2) hown
        (by simp only [List.map_append, List.map_cons, hst, hs, hoisted_strip, hown])
        (faithful_list h1 hl) (faithful_list hp hlp)
        (f1.append (by
          intro x hx
          rcases List.mem_cons.1 hx with rfl | hx
          · exact h1
          · exact faithful_list h1 hl x (hoisted_sub hx)))
        (f2.append (by
          intro x hx
          rcases List.mem_cons.1 hx with rfl | hx
          · exact hp
          · exact faithful_list hp hlp x (hoisted_sub hx)))
      obtain ⟨tc, e9, e10⟩ := run_unwrap (Run.blockCut hlp e2)
      refine ⟨tc, sa, ?_, e10, e3⟩
      rw [e9, visible_present, visible_present, e1, ← face_strip (faithful_at h1), hs, face_strip (faithful_at hp)]
    | list _ => exact hs.elim
    | turn => exact hs.elim
  | @node st n tr o st' hl _ ih =>
    intro st2 t2 hs hst h1 h2 f1 f2
    cases t2 with
    | node p =>
      have hs : strip (unwrap n) = strip (unwrap p) := hs
      rw [solid_of_look hl trivial] at hs
      have hlp : look (unwrap p) = .plain := by
        have h1 := look_strip n
        rw [hs, look_strip, hl] at h1
        revert h1
        cases look (unwrap p) <;> simp [Shape.strip]
      have hp := faithful_unwrap h2
      obtain ⟨ta, sa, e1, e2, e3⟩ := ih (t2 := .turn) (st2 := st2 ++ [unwrap p]) trivial
        (by simp only [List.map_append, List.map_cons, hst, hs, List.map_nil]) trivial trivial
        (f1.append (by intro x hx; cases List.mem_singleton.1 hx; exact h1))
        (f2.append (by intro x hx; cases List.mem_singleton.1 hx; exact hp))
      obtain ⟨tc, e9, e10⟩ := run_unwrap (Run.node hlp e2)
      refine ⟨tc, sa, ?_, e10, e3⟩
      rw [e9, visible_present, visible_present, e1, ← face_strip (faithful_at h1), hs, face_strip (faithful_at hp)]
    | list _ => exact hs.elim
    | turn => exact hs.elim
  | @nil st =>
    intro st2 t2 hs hst _ _ f1 f2
    cases t2 with
    | list ss2 =>
      have hs : own [] = own ss2 := hs
      obtain ⟨tr', e1, e2⟩ := run_own_nil (V := V) (A := A) (solid := solid) (st := st2) hs.symm
      exact ⟨tr', st2, e1, e2, hst, f1, f2⟩
    | node _ => exact hs.elim
    | turn => exact hs.elim
  | @count st sp c sp' cs ss tr o st' _ ih =>
    intro st2 t2 hs hst h1 h2 f1 f2
    cases t2 with
    | list ss2 =>
      have hs : own (mk .exprStmt sp [mk (.counter c) sp' cs] :: ss) = own ss2 := hs
      rw [own_cons_injected rfl] at hs
      exact ih (t2 := .list ss2) hs hst (fun s hs => h1 s (List.mem_cons_of_mem _ hs)) h2 f1 f2
    | node _ => exact hs.elim
    | turn => exact hs.elim
  | @setup st s ss tr o st' hk _ ih =>
    intro st2 t2 hs hst h1 h2 f1 f2
    cases t2 with
    | list ss2 =>
      have hs : own (s :: ss) = own ss2 := hs
      rw [own_cons_injected (by
        rcases hk with h | h <;> simp [isInjectedItem, h])] at hs
      exact ih (t2 := .list ss2) hs hst (fun s hs => h1 s (List.mem_cons_of_mem _ hs)) h2 f1 f2
    | node _ => exact hs.elim
    | turn => exact hs.elim
  | @next st s ss tr v st1 tr' o st' hi _ _ ih1 ih2 =>
    intro st2 t2 hs hst h1 h2 f1 f2
    cases t2 with
    | list ss2 =>
      have hs : own (s :: ss) = own ss2 := hs
      rw [own_cons hi] at hs
      suffices hq : ∃ sx, st'.map strip = sx.map strip ∧ AllFaithful st' ∧ AllFaithful sx ∧
          ∃ tx, visible tx = visible (tr ++ tr') ∧ Run solid st2 (.list ss2) tx o sx by
        obtain ⟨sx, e1, e2, e3, tx, e4, e5⟩ := hq
        exact ⟨tx, sx, e4, e5, e1, e2, e3⟩
      obtain ⟨pre, s2, rest, rfl, hpre, hi2, hss, hrest⟩ := own_split hs
      obtain ⟨ta, sa, e1, e2, e3, e4, e5⟩ := ih1 (t2 := .node s2) (st2 := st2)
        (by show strip (unwrap s) = strip (unwrap s2); rw [← strip_unwrap, ← strip_unwrap, hss]) hst
        (h1 s (by simp)) (h2 s2 (by simp)) f1 f2
      obtain ⟨tb, sb, e6, e7, e8, e9, e10⟩ := ih2 (t2 := .list rest) hrest.symm e3
        (fun x hx => h1 x (List.mem_cons_of_mem _ hx)) (fun x hx => h2 x (by simp [hx])) e4 e5
      refine ⟨sb, e8, e9, e10, ?_⟩
      obtain ⟨tx, g1, g2⟩ := run_skips hpre (.next hi2 e2 e7)
      exact ⟨tx, by rw [g1, visible_append, visible_append, e1, e6], g2⟩
    | node _ => exact hs.elim
    | turn => exact hs.elim
  | @stop st s ss tr o st' hi _ ho ih1 =>
    intro st2 t2 hs hst h1 h2 f1 f2
    cases t2 with
    | list ss2 =>
      have hs : own (s :: ss) = own ss2 := hs
      rw [own_cons hi] at hs
      obtain ⟨pre, s2, rest, rfl, hpre, hi2, hss, hrest⟩ := own_split hs
      obtain ⟨ta, sa, e1, e2, e3⟩ := ih1 (t2 := .node s2) (st2 := st2)
        (by show strip (unwrap s) = strip (unwrap s2); rw [← strip_unwrap, ← strip_unwrap, hss]) hst
        (h1 s (by simp)) (h2 s2 (by simp)) f1 f2
      obtain ⟨tx, g1, g2⟩ := run_skips hpre (.stop hi2 e2 ho)
      exact ⟨tx, sa, by rw [g1, e1], g2, e3⟩
    | node _ => exact hs.elim
    | turn => exact hs.elim
  | @answer st o ho =>
    intro st2 t2 hs hst _ _ f1 f2
    cases t2 with
    | turn => exact ⟨_, st2, rfl, .answer ho, hst, f1, f2⟩
    | node _ => exact hs.elim
    | list _ => exact hs.elim
  | @pick st h n j c tr o st1 tr' o' st' hn hc _ ho _ ih1 ih2 =>
    intro st2 t2 hs hst _ _ f1 f2
    cases t2 with
    | turn =>
      obtain ⟨n2, hn2, hnn⟩ : ∃ n2, st2[h]? = some n2 ∧ strip n = strip n2 := by
        have := congrArg (·[h]?) hst
        simp only [List.getElem?_map, hn, Option.map_some] at this
        obtain ⟨n2, h1, h2⟩ := Option.map_eq_some_iff.1 this.symm
        exact ⟨n2, h1, h2.symm⟩
      have fn := f1 n (List.mem_of_getElem? hn)
      have fn2 := f2 n2 (List.mem_of_getElem? hn2)
      obtain ⟨c2, hc2, hcc⟩ : ∃ c2, (kids n2)[j]? = some c2 ∧ strip (unwrap c) = strip (unwrap c2) := by
        have h1 := kids_strip n
        rw [hnn, kids_strip n2] at h1
        have := congrArg (·[j]?) h1
        simp only [List.getElem?_map, hc, Option.map_some] at this
        obtain ⟨c2, h1, h2⟩ := Option.map_eq_some_iff.1 this
        exact ⟨c2, h1, h2.symm⟩
      obtain ⟨ta, sa, e1, e2, e3, e4, e5⟩ := ih1 (t2 := .node c2) hcc hst
        (faithful_kids fn c (List.mem_of_getElem? hc)) (faithful_kids fn2 c2 (List.mem_of_getElem? hc2)) f1 f2
      obtain ⟨tb, sb, e6, e7, e8⟩ := ih2 (t2 := .turn) trivial e3 trivial trivial e4 e5
      refine ⟨_, sb, ?_, .pick hn2 hc2 e2 ho e7, e8⟩
      rw [visible_pick, visible_pick, face_same hnn fn fn2, visible_append, visible_append, visible_got, visible_got, e1, e6]
    | node _ => exact hs.elim
    | list _ => exact hs.elim
  | @pickCut st h n j c tr st' hn hc _ ih1 =>
    intro st2 t2 hs hst _ _ f1 f2
    cases t2 with
    | turn =>
      obtain ⟨n2, hn2, hnn⟩ : ∃ n2, st2[h]? = some n2 ∧ strip n = strip n2 := by
        have := congrArg (·[h]?) hst
        simp only [List.getElem?_map, hn, Option.map_some] at this
        obtain ⟨n2, h1, h2⟩ := Option.map_eq_some_iff.1 this.symm
        exact ⟨n2, h1, h2.symm⟩
      have fn := f1 n (List.mem_of_getElem? hn)
      have fn2 := f2 n2 (List.mem_of_getElem? hn2)
      obtain ⟨c2, hc2, hcc⟩ : ∃ c2, (kids n2)[j]? = some c2 ∧ strip (unwrap c) = strip (unwrap c2) := by
        have h1 := kids_strip n
        rw [hnn, kids_strip n2] at h1
        have := congrArg (·[j]?) h1
        simp only [List.getElem?_map, hc, Option.map_some] at this
        obtain ⟨c2, h1, h2⟩ := Option.map_eq_some_iff.1 this
        exact ⟨c2, h1, h2.symm⟩
      obtain ⟨ta, sa, e1, e2, e3⟩ := ih1 (t2 := .node c2) hcc hst
        (faithful_kids fn c (List.mem_of_getElem? hc)) (faithful_kids fn2 c2 (List.mem_of_getElem? hc2)) f1 f2
      refine ⟨_, sa, ?_, .pickCut hn2 hc2 e2, e3⟩
      rw [visible_pick, visible_pick, face_same hnn fn fn2, e1]
    | node _ => exact hs.elim
    | list _ => exact hs.elim

/-- Programs that are the same up to counters have the same executions. -/
theorem exec_same {p q : Node} (h : strip p = strip q) (hp : faithful p = true) (hq : faithful q = true)
    {tr : List (Ev V A)} {o o' : Outcome V A} (hr : Exec solid p tr o o') :
    ∃ tr', visible tr' = visible tr ∧ Exec solid q tr' o o' := by
  obtain ⟨tr1, tr2, st1, st2, rfl, h1, h2⟩ := hr
  obtain ⟨ta, sa, e1, e2, e3, e4, e5⟩ := simulate h1 (t2 := .node q) (st2 := [])
    (by show strip (unwrap p) = strip (unwrap q); rw [← strip_unwrap, ← strip_unwrap, h]) rfl hp hq
    (by intro x hx; cases hx) (by intro x hx; cases hx)
  obtain ⟨tb, sb, e6, e7, -⟩ := simulate h2 (t2 := .turn) trivial e3 trivial trivial e4 e5
  exact ⟨ta ++ tb, by rw [visible_append, visible_append, e1, e6], ta, tb, sa, sb, rfl, e2, e7⟩

end

end Sem
end Verif
