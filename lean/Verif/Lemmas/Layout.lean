import Verif.Spec.Layout
import Verif.Lemmas.Grammar
import Verif.Lemmas.Serde
/-
The readers of coverage data and options agree with the layout.
-/
namespace Verif.Layout
open Serde

/-- A reader reads exactly what stands for the data. -/
def Agrees {V : Type} (f : Data → Option V) (P : Data → V → Prop) : Prop := ∀ d v, f d = some v ↔ P d v

theorem agrees_u32 : Agrees u32 IsU32 := by
  intro d n
  unfold IsU32
  cases d with
  | num m =>
    rw [u32]
    constructor
    · intro h
      split at h
      · cases h; exact ⟨rfl, by omega⟩
      · cases h
    · rintro ⟨h, hn⟩
      cases h
      rw [if_pos (by omega)]
  | _ => exact ⟨fun h => (by cases h), fun h => by cases h.1⟩

theorem agrees_str : Agrees string IsStr := by
  intro d s
  cases d with
  | str t => exact ⟨fun h => by cases h; rfl, fun h => by cases h; rfl⟩
  | _ => exact ⟨fun h => (by cases h), fun h => by cases h⟩

theorem agrees_bool : Agrees bool IsBool := by
  intro d s
  cases d with
  | bool t => exact ⟨fun h => by cases h; rfl, fun h => by cases h; rfl⟩
  | _ => exact ⟨fun h => (by cases h), fun h => by cases h⟩

theorem agrees_opt {V : Type} {f : Data → Option V} {P : Data → V → Prop} (h : Agrees f P) : Agrees (opt f) (IsOpt P) := by
  intro d o
  have key : d ≠ .null → (opt f d = some o ↔ IsOpt P d o) := by
    intro hd
    have he : opt f d = (f d).map some := by
      cases d with
      | null => exact absurd rfl hd
      | _ => rfl
    rw [he]
    cases o with
    | none =>
      constructor
      · intro h
        obtain ⟨v, -, h⟩ := Option.map_eq_some_iff.1 h
        cases h
      · intro h; exact absurd h hd
    | some v =>
      constructor
      · intro h'
        obtain ⟨v', h1, h2⟩ := Option.map_eq_some_iff.1 h'
        cases h2
        exact ⟨hd, (h d v).1 h1⟩
      · rintro ⟨-, h'⟩
        rw [(h d v).2 h']; rfl
  by_cases hd : d = .null
  · subst hd
    cases o with
    | none => exact ⟨fun _ => rfl, fun _ => rfl⟩
    | some v => exact ⟨fun h => (by cases h), fun h => absurd rfl h.1⟩
  · exact key hd

theorem readAll_iff {A V : Type} {f : A → Option V} {P : A → V → Prop} (h : ∀ a v, f a = some v ↔ P a v) (l : List A) (vs : List V) :
    readAll f l = some vs ↔ List.Forall₂ P l vs := by
  induction l generalizing vs with
  | nil =>
    constructor
    · intro h; rw [readAll] at h; cases h; exact .nil
    · intro h; cases h; rfl
  | cons a l ih =>
    rw [readAll]
    cases hf : f a with
    | none =>
      refine ⟨fun h => (by cases h), fun hh => ?_⟩
      cases hh with
      | cons h1 h2 => rw [(h _ _).2 h1] at hf; cases hf
    | some v =>
      constructor
      · intro h'
        obtain ⟨ws, h1, rfl⟩ := Option.map_eq_some_iff.1 h'
        exact .cons ((h a v).1 hf) ((ih ws).1 h1)
      · intro hh
        cases hh with
        | cons h1 h2 =>
          rw [(h _ _).2 h1] at hf
          cases hf
          show Option.map _ (readAll f l) = _
          rw [(ih _).2 h2]
          rfl

theorem agrees_vec {V : Type} {f : Data → Option V} {P : Data → V → Prop} (h : Agrees f P) : Agrees (vec f) (IsList P) := by
  intro d vs
  cases d with
  | arr l =>
    refine ⟨fun h' => ⟨l, rfl, (readAll_iff h l vs).1 h'⟩, ?_⟩
    rintro ⟨ds, he, h'⟩
    cases he
    exact (readAll_iff h l vs).2 h'
  | _ => exact ⟨fun h => (by cases h), fun h => by obtain ⟨_, h, _⟩ := h; cases h⟩

theorem key_iff (s : String) (n : Nat) : key s = some n ↔ IsKey s n := by
  unfold key IsKey
  constructor
  · intro h
    cases hn : Json.number s.toList with
    | none => rw [hn] at h; cases h
    | some x =>
      obtain ⟨d, r⟩ := x
      obtain ⟨w, fr, ex, hw, hfr, hex, hl, rfl⟩ := Json.number_some hn
      rw [hn] at h
      by_cases hz : fr = [] ∧ ex = []
      · rw [Json.numeral, if_pos hz] at h
        cases r with
        | cons c r => cases h
        | nil =>
          obtain ⟨h1, h2⟩ := (agrees_u32 _ _).1 h
          cases h1
          rw [hz.1, hz.2, List.append_nil, List.append_nil, List.append_nil] at hl
          rw [hl]
          exact ⟨hw, rfl, h2⟩
      · rw [Json.numeral, if_neg hz] at h
        cases h
  · rintro ⟨hw, rfl, hn⟩
    have := Json.number_stop (rest := []) hw .absent .absent trivial
    rw [Json.numeral, if_pos ⟨rfl, rfl⟩, List.append_nil, List.append_nil, List.append_nil] at this
    rw [this]
    exact (agrees_u32 _ _).2 ⟨rfl, hn⟩

theorem entry_iff {V : Type} {f : Data → Option V} {P : Data → V → Prop} (h : Agrees f P) (e : String × Data) (x : Nat × V) :
    entry f e = some x ↔ IsKey e.1 x.1 ∧ P e.2 x.2 := by
  unfold entry
  cases hk : key e.1 with
  | none =>
    refine ⟨fun h => (by cases h), fun h => ?_⟩
    rw [(key_iff _ _).2 h.1] at hk; cases hk
  | some n =>
    constructor
    · intro h'
      obtain ⟨v, h1, rfl⟩ := Option.map_eq_some_iff.1 h'
      exact ⟨(key_iff _ _).1 hk, (h _ _).1 h1⟩
    · rintro ⟨h1, h2⟩
      rw [(key_iff _ _).2 h1] at hk
      cases hk
      show Option.map _ (f e.2) = _
      rw [(h _ _).2 h2]
      rfl

/-- The table of the pairs, inserted one after the other. -/
def inserted {V : Type} (es : List (Nat × V)) : IndexMap Nat V := es.foldl (fun m e => IndexMap.insert m e.1 e.2) []

theorem inserted_snoc {V : Type} (es : List (Nat × V)) (e : Nat × V) :
    inserted (es ++ [e]) = IndexMap.insert (inserted es) e.1 e.2 := by
  unfold inserted; rw [List.foldl_append]; rfl

theorem mem_insert {V : Type} {m : IndexMap Nat V} (hm : IndexMap.NodupKeys m) {k : Nat} {v : V} {x : Nat × V}
    (h : x ∈ IndexMap.insert m k v) : x = (k, v) ∨ (x.1 ≠ k ∧ x ∈ m) := by
  induction m with
  | nil => left; simpa [IndexMap.insert] using h
  | cons e m ih =>
    obtain ⟨k', v'⟩ := e
    rw [IndexMap.insert] at h
    unfold IndexMap.NodupKeys IndexMap.keys at hm
    rw [List.map_cons, List.nodup_cons] at hm
    by_cases hk : k' = k
    · rw [if_pos hk] at h
      rcases List.mem_cons.1 h with rfl | h
      · left; rw [hk]
      · right
        refine ⟨fun e => hm.1 ?_, by simp [h]⟩
        exact List.mem_map.2 ⟨x, h, by rw [e]; exact hk.symm⟩
    · rw [if_neg hk] at h
      rcases List.mem_cons.1 h with rfl | h
      · right; exact ⟨hk, by simp⟩
      · rcases ih hm.2 h with h | h
        · exact .inl h
        · exact .inr ⟨h.1, by simp [h.2]⟩

theorem inserted_spec {V : Type} (es : List (Nat × V)) : IndexMap.NodupKeys (inserted es) ∧
    (inserted es).map Prod.fst = (es.map Prod.fst).eraseDups ∧
    ∀ x ∈ inserted es, (es.filter fun y => y.1 = x.1).getLast? = some x := by
  induction es using List.reverseRecOn with
  | nil => exact ⟨List.nodup_nil, rfl, fun _ h => by cases h⟩
  | append_singleton es e ih =>
    obtain ⟨h1, h2, h3⟩ := ih
    rw [inserted_snoc]
    refine ⟨IndexMap.nodupKeys_insert h1 _ _, ?_, ?_⟩
    · have := IndexMap.keys_insert (inserted es) e.1 e.2
      unfold IndexMap.keys at this
      rw [show (fun x : Nat × V => x.1) = Prod.fst from rfl] at this
      rw [this, h2, List.map_append, List.eraseDups_append]
      by_cases hm : e.1 ∈ (es.map Prod.fst).eraseDups
      · rw [if_pos hm]
        have : e.1 ∈ es.map Prod.fst := List.mem_eraseDups.1 hm
        simp [List.removeAll, this]
      · rw [if_neg hm]
        have : e.1 ∉ es.map Prod.fst := fun h => hm (List.mem_eraseDups.2 h)
        simp only [List.removeAll, List.map_cons, List.map_nil, List.elem_eq_mem, this, decide_false, Bool.not_false,
          List.filter_cons_of_pos, List.filter_nil]
        rfl
    · intro x hx
      rw [List.filter_append]
      rcases mem_insert h1 hx with rfl | ⟨hk, hx⟩
      · simp
      · rw [List.filter_cons_of_neg (by simpa using fun h => hk h.symm), List.filter_nil, List.append_nil]
        exact h3 x hx

theorem table_unique {V : Type} {es m m' : List (Nat × V)} (h1 : m.map Prod.fst = m'.map Prod.fst)
    (h2 : ∀ x ∈ m, (es.filter fun y => y.1 = x.1).getLast? = some x)
    (h3 : ∀ x ∈ m', (es.filter fun y => y.1 = x.1).getLast? = some x) : m = m' := by
  induction m generalizing m' with
  | nil => cases m' with
    | nil => rfl
    | cons => simp at h1
  | cons x m ih => cases m' with
    | nil => simp at h1
    | cons y m' =>
      rw [List.map_cons, List.map_cons, List.cons.injEq] at h1
      have hx := h2 x (by simp)
      have hy := h3 y (by simp)
      rw [h1.1, hy] at hx
      rw [Option.some.inj hx, ih h1.2 (fun z hz => h2 z (by simp [hz])) fun z hz => h3 z (by simp [hz])]

theorem agrees_map {V : Type} {f : Data → Option V} {P : Data → V → Prop} (h : Agrees f P) : Agrees (map f) (IsTable P) := by
  intro d m
  cases d with
  | obj fs =>
    constructor
    · intro h'
      obtain ⟨es, h1, rfl⟩ := Option.map_eq_some_iff.1 h'
      exact ⟨fs, es, rfl, (readAll_iff (entry_iff h) fs es).1 h1, (inserted_spec es).2⟩
    · rintro ⟨fs', es, he, h1, h2, h3⟩
      cases he
      show Option.map _ (readAll (entry f) fs) = _
      rw [(readAll_iff (entry_iff h) fs es).2 h1]
      show some (inserted es) = some m
      obtain ⟨-, h4, h5⟩ := inserted_spec es
      rw [table_unique (h4.trans h2.symm) h5 h3]
  | _ => exact ⟨fun h => (by cases h), fun h => by obtain ⟨_, _, h, _⟩ := h; cases h⟩

/-! ### Structs -/

/-- The member `k` is there at most once. -/
def AtMost (fs : List (String × Data)) (k : String) : Prop := (fs.filter fun e => e.1 = k).length ≤ 1

theorem struct_iff {known : List String} {d : Data} {fs : List (String × Data)} :
    struct known d = some fs ↔ d = .obj fs ∧ ∀ k ∈ known, AtMost fs k := by
  cases d with
  | obj gs =>
    rw [struct]
    constructor
    · intro h
      split at h
      · rename_i hk
        cases h
        refine ⟨rfl, fun k hk' => ?_⟩
        have := List.all_eq_true.1 hk k hk'
        simpa [AtMost] using this
      · cases h
    · rintro ⟨h, hk⟩
      cases h
      rw [if_pos (List.all_eq_true.2 fun k hk' => by simpa [AtMost] using hk k hk')]
  | _ => exact ⟨fun h => (by cases h), fun h => by cases h.1⟩

theorem absent_iff (fs : List (String × Data)) (k : String) : member fs k = none ↔ Absent fs k := by
  unfold member Absent
  induction fs with
  | nil => simp [IndexMap.get]
  | cons e fs ih =>
    obtain ⟨k', d⟩ := e
    rw [IndexMap.get]
    by_cases hk : k' = k
    · rw [if_pos hk]; simp [hk]
    · rw [if_neg hk, ih]; simp [hk]

theorem absent_filter {fs : List (String × Data)} {k : String} : Absent fs k ↔ fs.filter (fun e => e.1 = k) = [] := by
  rw [List.filter_eq_nil_iff]; simp [Absent]

theorem once_iff (fs : List (String × Data)) (k : String) (d : Data) : Once fs k d ↔ AtMost fs k ∧ member fs k = some d := by
  constructor
  · rintro ⟨a, b, rfl, ha, hb⟩
    refine ⟨?_, ?_⟩
    · unfold AtMost
      rw [List.filter_append, absent_filter.1 ha, List.filter_cons_of_pos (by simp), absent_filter.1 hb]
      simp
    · unfold member
      induction a with
      | nil => show IndexMap.get ((k, d) :: b) k = _; rw [IndexMap.get, if_pos rfl]
      | cons e a ih =>
        obtain ⟨k', d'⟩ := e
        show IndexMap.get ((k', d') :: (a ++ (k, d) :: b)) k = _
        rw [IndexMap.get, if_neg (ha (k', d') (by simp)), ih fun x hx => ha x (by simp [hx])]
  · rintro ⟨h1, h2⟩
    induction fs with
    | nil => cases h2
    | cons e fs ih =>
      obtain ⟨k', d'⟩ := e
      unfold member at h2
      rw [IndexMap.get] at h2
      by_cases hk : k' = k
      · rw [if_pos hk] at h2
        cases h2
        refine ⟨[], fs, by rw [hk]; rfl, fun _ h => (by cases h), ?_⟩
        unfold AtMost at h1
        rw [List.filter_cons_of_pos (by simpa using hk)] at h1
        refine absent_filter.2 (List.length_eq_zero_iff.1 ?_)
        simp only [List.length_cons] at h1
        omega
      · rw [if_neg hk] at h2
        unfold AtMost at h1
        rw [List.filter_cons_of_neg (by simpa using hk)] at h1
        obtain ⟨a, b, rfl, ha, hb⟩ := ih h1 h2
        refine ⟨(k', d') :: a, b, rfl, fun x hx => ?_, hb⟩
        rcases List.mem_cons.1 hx with rfl | hx
        · exact hk
        · exact ha x hx

theorem Absent.atMost {fs : List (String × Data)} {k : String} (h : Absent fs k) : AtMost fs k := by
  unfold AtMost; rw [absent_filter.1 h]; simp

theorem Field.atMost {V : Type} {P : Data → V → Prop} {fs : List (String × Data)} {k : String} {v : V} (h : Field P fs k v) :
    AtMost fs k := by
  obtain ⟨d, h, -⟩ := h
  exact ((once_iff _ _ _).1 h).1

theorem FieldOr.atMost {V : Type} {dflt : V} {P : Data → V → Prop} {fs : List (String × Data)} {k : String} {v : V}
    (h : FieldOr dflt P fs k v) : AtMost fs k := by
  rcases h with h | ⟨h, -⟩
  · exact h.atMost
  · exact h.atMost

theorem required_iff {V : Type} {f : Data → Option V} {P : Data → V → Prop} (h : Agrees f P) {fs : List (String × Data)}
    {k : String} (ha : AtMost fs k) (v : V) : required f fs k = some v ↔ Field P fs k v := by
  unfold required
  cases hm : member fs k with
  | none =>
    refine ⟨fun h => (by cases h), ?_⟩
    rintro ⟨d, h1, -⟩
    rw [((once_iff _ _ _).1 h1).2] at hm; cases hm
  | some d =>
    constructor
    · intro h'; exact ⟨d, (once_iff _ _ _).2 ⟨ha, hm⟩, (h _ _).1 h'⟩
    · rintro ⟨d', h1, h2⟩
      rw [((once_iff _ _ _).1 h1).2] at hm
      cases hm
      exact (h _ _).2 h2

theorem withDefault_iff {V : Type} {dflt : V} {f : Data → Option V} {P : Data → V → Prop} (h : Agrees f P)
    {fs : List (String × Data)} {k : String} (ha : AtMost fs k) (v : V) :
    withDefault dflt f fs k = some v ↔ FieldOr dflt P fs k v := by
  have hr := required_iff h ha v
  unfold withDefault FieldOr
  unfold required at hr
  cases hm : member fs k with
  | none =>
    rw [hm] at hr
    have hab := (absent_iff _ _).1 hm
    constructor
    · intro h'; cases h'; exact .inr ⟨hab, rfl⟩
    · rintro (h' | ⟨-, rfl⟩)
      · exact absurd (hr.2 h') (by simp)
      · rfl
  | some d =>
    rw [hm] at hr
    constructor
    · intro h'; exact .inl (hr.1 h')
    · rintro (h' | ⟨h', -⟩)
      · exact hr.2 h'
      · rw [(absent_iff _ _).2 h'] at hm; cases hm

theorem optional_iff {V : Type} {f : Data → Option V} {P : Data → V → Prop} (h : Agrees f P)
    {fs : List (String × Data)} {k : String} (ha : AtMost fs k) (v : Option V) :
    optional f fs k = some v ↔ FieldOr none (IsOpt P) fs k v := withDefault_iff (agrees_opt h) ha v

theorem agrees_location : Agrees location IsLocation := by
  intro d l
  unfold location IsLocation
  simp only [Option.bind_eq_bind, Option.bind_eq_some_iff, Option.pure_def, Option.some.injEq, struct_iff, List.mem_cons,
    List.not_mem_nil, or_false, forall_eq_or_imp, forall_eq]
  constructor
  · rintro ⟨fs, ⟨rfl, a1, a2⟩, x1, h1, x2, h2, rfl⟩
    exact ⟨fs, rfl, (required_iff agrees_u32 a1 _).1 h1, (required_iff agrees_u32 a2 _).1 h2⟩
  · rintro ⟨fs, rfl, h1, h2⟩
    exact ⟨fs, ⟨rfl, h1.atMost, h2.atMost⟩, _, (required_iff agrees_u32 h1.atMost _).2 h1, _,
      (required_iff agrees_u32 h2.atMost _).2 h2, rfl⟩

theorem agrees_range : Agrees range IsRange := by
  intro d l
  unfold range IsRange
  simp only [Option.bind_eq_bind, Option.bind_eq_some_iff, Option.pure_def, Option.some.injEq, struct_iff, List.mem_cons,
    List.not_mem_nil, or_false, forall_eq_or_imp, forall_eq]
  constructor
  · rintro ⟨fs, ⟨rfl, a1, a2⟩, x1, h1, x2, h2, rfl⟩
    exact ⟨fs, rfl, (required_iff agrees_location a1 _).1 h1, (required_iff agrees_location a2 _).1 h2⟩
  · rintro ⟨fs, rfl, h1, h2⟩
    exact ⟨fs, ⟨rfl, h1.atMost, h2.atMost⟩, _, (required_iff agrees_location h1.atMost _).2 h1, _,
      (required_iff agrees_location h2.atMost _).2 h2, rfl⟩

theorem agrees_function : Agrees function IsFunction := by
  intro d l
  unfold function IsFunction
  simp only [Option.bind_eq_bind, Option.bind_eq_some_iff, Option.pure_def, Option.some.injEq, struct_iff, List.mem_cons,
    List.not_mem_nil, or_false, forall_eq_or_imp, forall_eq]
  constructor
  · rintro ⟨fs, ⟨rfl, a1, a2, a3, a4⟩, x1, h1, x2, h2, x3, h3, x4, h4, rfl⟩
    exact ⟨fs, rfl, (required_iff agrees_str a1 _).1 h1, (required_iff agrees_range a2 _).1 h2,
      (required_iff agrees_range a3 _).1 h3, (required_iff agrees_u32 a4 _).1 h4⟩
  · rintro ⟨fs, rfl, h1, h2, h3, h4⟩
    exact ⟨fs, ⟨rfl, h1.atMost, h2.atMost, h3.atMost, h4.atMost⟩, _, (required_iff agrees_str h1.atMost _).2 h1, _,
      (required_iff agrees_range h2.atMost _).2 h2, _, (required_iff agrees_range h3.atMost _).2 h3, _,
      (required_iff agrees_u32 h4.atMost _).2 h4, rfl⟩

theorem agrees_branchType : Agrees branchType IsBranchType := by
  intro d t
  cases d with
  | str s =>
    have hs : IsBranchType (.str s) t ↔ (s, t) ∈ branchNames :=
      ⟨fun ⟨s', h, h'⟩ => by cases h; exact h', fun h => ⟨s, rfl, h⟩⟩
    rw [hs]
    constructor
    · intro h
      rw [branchType] at h
      split at h
      · rename_i g; cases h; subst g; decide
      split at h
      · rename_i g; cases h; subst g; decide
      split at h
      · rename_i g; cases h; subst g; decide
      split at h
      · rename_i g; cases h; subst g; decide
      split at h
      · rename_i g; cases h; subst g; decide
      cases h
    · intro h
      have key : ∀ x ∈ branchNames, branchType (.str x.1) = some x.2 := by decide
      exact key _ h
  | _ => exact ⟨fun h => (by cases h), fun h => by obtain ⟨_, h, _⟩ := h; cases h⟩

theorem agrees_branch : Agrees branch IsBranch := by
  intro d l
  unfold branch IsBranch
  simp only [Option.bind_eq_bind, Option.bind_eq_some_iff, Option.pure_def, Option.some.injEq, struct_iff, List.mem_cons,
    List.not_mem_nil, or_false, forall_eq_or_imp, forall_eq]
  have hv := agrees_vec agrees_range
  constructor
  · rintro ⟨fs, ⟨rfl, a1, a2, a3, a4⟩, x1, h1, x2, h2, x3, h3, x4, h4, rfl⟩
    exact ⟨fs, rfl, (optional_iff agrees_range a1 _).1 h1, (required_iff agrees_branchType a2 _).1 h2,
      (required_iff hv a3 _).1 h3, (optional_iff agrees_u32 a4 _).1 h4⟩
  · rintro ⟨fs, rfl, h1, h2, h3, h4⟩
    exact ⟨fs, ⟨rfl, h1.atMost, h2.atMost, h3.atMost, h4.atMost⟩, _, (optional_iff agrees_range h1.atMost _).2 h1, _,
      (required_iff agrees_branchType h2.atMost _).2 h2, _, (required_iff hv h3.atMost _).2 h3, _,
      (optional_iff agrees_u32 h4.atMost _).2 h4, rfl⟩

theorem agrees_sourceMap : Agrees sourceMap IsSourceMap := by
  intro d l
  unfold sourceMap IsSourceMap
  simp only [Option.bind_eq_bind, Option.bind_eq_some_iff, Option.pure_def, Option.some.injEq, struct_iff, List.mem_cons,
    List.not_mem_nil, or_false, forall_eq_or_imp, forall_eq]
  have hv := agrees_vec agrees_str
  have hc := agrees_vec (agrees_opt agrees_str)
  constructor
  · rintro ⟨fs, ⟨rfl, a1, a2, a3, a4, a5, a6, a7⟩, x1, h1, x2, h2, x3, h3, x4, h4, x5, h5, x6, h6, x7, h7, rfl⟩
    exact ⟨fs, rfl, (withDefault_iff agrees_u32 a1 _).1 h1, (optional_iff agrees_str a2 _).1 h2,
      (optional_iff agrees_str a3 _).1 h3, (withDefault_iff hv a4 _).1 h4, (optional_iff hc a5 _).1 h5,
      (withDefault_iff hv a6 _).1 h6, (withDefault_iff agrees_str a7 _).1 h7⟩
  · rintro ⟨fs, rfl, h1, h2, h3, h4, h5, h6, h7⟩
    exact ⟨fs, ⟨rfl, h1.atMost, h2.atMost, h3.atMost, h4.atMost, h5.atMost, h6.atMost, h7.atMost⟩,
      _, (withDefault_iff agrees_u32 h1.atMost _).2 h1, _, (optional_iff agrees_str h2.atMost _).2 h2, _,
      (optional_iff agrees_str h3.atMost _).2 h3, _, (withDefault_iff hv h4.atMost _).2 h4, _,
      (optional_iff hc h5.atMost _).2 h5, _, (withDefault_iff hv h6.atMost _).2 h6, _,
      (withDefault_iff agrees_str h7.atMost _).2 h7, rfl⟩

theorem agrees_coverage : Agrees coverage IsCoverage := by
  intro d l
  unfold coverage IsCoverage
  simp only [Option.bind_eq_bind, Option.bind_eq_some_iff, Option.pure_def, Option.some.injEq, struct_iff, List.mem_cons,
    List.not_mem_nil, or_false, forall_eq_or_imp, forall_eq]
  have m1 := agrees_map agrees_range
  have m2 := agrees_map agrees_function
  have m3 := agrees_map agrees_branch
  have m4 := agrees_map agrees_u32
  have m5 := agrees_map (agrees_vec agrees_u32)
  constructor
  · rintro ⟨fs, ⟨rfl, a1, a2, a3, a4, a5, a6, a7, a8, a9, a10⟩, x1, h1, x2, h2, x3, h3, x4, h4, x5, h5, x6, h6, x7, h7, x8, h8,
      x9, h9, x10, h10, rfl⟩
    exact ⟨fs, rfl, (withDefault_iff agrees_bool a1 _).1 h1, (required_iff agrees_str a2 _).1 h2, (required_iff m1 a3 _).1 h3,
      (required_iff m2 a4 _).1 h4, (required_iff m3 a5 _).1 h5, (required_iff m4 a6 _).1 h6, (required_iff m4 a7 _).1 h7,
      (required_iff m5 a8 _).1 h8, (optional_iff m5 a9 _).1 h9, (optional_iff agrees_sourceMap a10 _).1 h10⟩
  · rintro ⟨fs, rfl, h1, h2, h3, h4, h5, h6, h7, h8, h9, h10⟩
    exact ⟨fs, ⟨rfl, h1.atMost, h2.atMost, h3.atMost, h4.atMost, h5.atMost, h6.atMost, h7.atMost, h8.atMost, h9.atMost, h10.atMost⟩,
      _, (withDefault_iff agrees_bool h1.atMost _).2 h1, _, (required_iff agrees_str h2.atMost _).2 h2, _,
      (required_iff m1 h3.atMost _).2 h3, _, (required_iff m2 h4.atMost _).2 h4, _, (required_iff m3 h5.atMost _).2 h5, _,
      (required_iff m4 h6.atMost _).2 h6, _, (required_iff m4 h7.atMost _).2 h7, _, (required_iff m5 h8.atMost _).2 h8, _,
      (optional_iff m5 h9.atMost _).2 h9, _, (optional_iff agrees_sourceMap h10.atMost _).2 h10, rfl⟩

theorem agrees_log : Agrees Plugin.LogOptions.read IsLog := by
  intro d l
  unfold Plugin.LogOptions.read IsLog
  simp only [Option.bind_eq_bind, Option.bind_eq_some_iff, Option.pure_def, Option.some.injEq, struct_iff, List.mem_cons,
    List.not_mem_nil, or_false, forall_eq_or_imp, forall_eq]
  constructor
  · rintro ⟨fs, ⟨rfl, a1, a2⟩, x1, h1, x2, h2, rfl⟩
    exact ⟨fs, rfl, (optional_iff agrees_str a1 _).1 h1, (withDefault_iff agrees_bool a2 _).1 h2⟩
  · rintro ⟨fs, rfl, h1, h2⟩
    exact ⟨fs, ⟨rfl, h1.atMost, h2.atMost⟩, _, (optional_iff agrees_str h1.atMost _).2 h1, _,
      (withDefault_iff agrees_bool h2.atMost _).2 h2, rfl⟩

theorem agrees_options : Agrees Plugin.Options.read IsOptions := by
  intro d l
  unfold Plugin.Options.read IsOptions
  simp only [Option.bind_eq_bind, Option.bind_eq_some_iff, Option.pure_def, Option.some.injEq, struct_iff, List.mem_cons,
    List.not_mem_nil, or_false, forall_eq_or_imp, forall_eq]
  have hv := agrees_vec agrees_str
  constructor
  · rintro ⟨fs, ⟨rfl, a1, a2, a3, a4, a5, a6, a7, a8⟩, x1, h1, x2, h2, x3, h3, x4, h4, x5, h5, x6, h6, x7, h7, x8, h8, rfl⟩
    exact ⟨fs, rfl, (withDefault_iff agrees_str a1 _).1 h1, (withDefault_iff agrees_bool a2 _).1 h2,
      (withDefault_iff agrees_bool a3 _).1 h3, (withDefault_iff hv a4 _).1 h4, (optional_iff agrees_sourceMap a5 _).1 h5,
      (withDefault_iff agrees_log a6 _).1 h6, (withDefault_iff agrees_bool a7 _).1 h7, (optional_iff hv a8 _).1 h8⟩
  · rintro ⟨fs, rfl, h1, h2, h3, h4, h5, h6, h7, h8⟩
    exact ⟨fs, ⟨rfl, h1.atMost, h2.atMost, h3.atMost, h4.atMost, h5.atMost, h6.atMost, h7.atMost, h8.atMost⟩,
      _, (withDefault_iff agrees_str h1.atMost _).2 h1, _, (withDefault_iff agrees_bool h2.atMost _).2 h2, _,
      (withDefault_iff agrees_bool h3.atMost _).2 h3, _, (withDefault_iff hv h4.atMost _).2 h4, _,
      (optional_iff agrees_sourceMap h5.atMost _).2 h5, _, (withDefault_iff agrees_log h6.atMost _).2 h6, _,
      (withDefault_iff agrees_bool h7.atMost _).2 h7, _, (optional_iff hv h8.atMost _).2 h8, rfl⟩

end Verif.Layout
