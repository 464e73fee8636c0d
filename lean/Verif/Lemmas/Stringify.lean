import Verif.Spec.Stringify
import Verif.Lemmas.Js
import Mathlib.Data.List.Forall2
import Mathlib.Data.List.Perm.Basic
/-
What `JSON.stringify` writes for a value that is a tree of data.
-/
namespace Verif
namespace Js

section
variable {A B : Type}

theorem place_perm (idx : A → Nat) (a : A) (l : List A) : (place idx a l).Perm (a :: l) := by
  induction l with
  | nil => exact .refl _
  | cons b l ih =>
    unfold place
    split
    · exact .refl _
    · exact (ih.cons b).trans (.swap a b l)

theorem ascending_perm (idx : A → Nat) (l : List A) : (ascending idx l).Perm l := by
  induction l with
  | nil => exact .refl _
  | cons a l ih => exact (place_perm idx a _).trans (ih.cons a)

theorem arrange_perm (idx : A → Option Nat) (l : List A) : (arrange idx l).Perm l := by
  unfold arrange
  refine ((ascending_perm _ _).append_right _).trans ?_
  have : (l.filter fun a => (idx a).isNone) = l.filter fun a => !(idx a).isSome := by
    congr 1
    funext a
    cases idx a <;> rfl
  rw [this]
  exact List.filter_append_perm _ l

theorem place_map (idx : B → Nat) (g : A → B) (a : A) (l : List A) :
    place idx (g a) (l.map g) = (place (fun x => idx (g x)) a l).map g := by
  induction l with
  | nil => rfl
  | cons b l ih =>
    simp only [List.map_cons, place]
    split
    · rfl
    · rw [ih]
      rfl

theorem ascending_map (idx : B → Nat) (g : A → B) (l : List A) :
    ascending idx (l.map g) = (ascending (fun x => idx (g x)) l).map g := by
  induction l with
  | nil => rfl
  | cons a l ih => rw [List.map_cons, ascending, ih, place_map]; rfl

theorem arrange_map (idx : B → Option Nat) (g : A → B) (l : List A) :
    arrange idx (l.map g) = (arrange (fun x => idx (g x)) l).map g := by
  unfold arrange
  rw [List.filter_map, List.filter_map, ascending_map, List.map_append]
  rfl

theorem place_rel {R : A → B → Prop} {ia : A → Nat} {ib : B → Nat} {a : A} {b : B} (h : R a b) (hab : ia a = ib b)
    {l : List A} {l' : List B} (hl : List.Forall₂ (fun x y => R x y ∧ ia x = ib y) l l') :
    List.Forall₂ (fun x y => R x y ∧ ia x = ib y) (place ia a l) (place ib b l') := by
  induction hl with
  | nil => exact .cons ⟨h, hab⟩ .nil
  | @cons x y l l' hxy hl ih =>
    simp only [place, hab, hxy.2]
    split
    · exact .cons ⟨h, hab⟩ (.cons hxy hl)
    · exact .cons hxy ih

theorem ascending_rel {R : A → B → Prop} {ia : A → Nat} {ib : B → Nat} {l : List A} {l' : List B}
    (hl : List.Forall₂ (fun x y => R x y ∧ ia x = ib y) l l') :
    List.Forall₂ (fun x y => R x y ∧ ia x = ib y) (ascending ia l) (ascending ib l') := by
  induction hl with
  | nil => exact .nil
  | cons hxy _ ih => exact place_rel hxy.1 hxy.2 ih

theorem filter_rel {R : A → B → Prop} {p : A → Bool} {q : B → Bool} (h : ∀ a b, R a b → p a = q b) {l : List A}
    {l' : List B} (hl : List.Forall₂ R l l') : List.Forall₂ R (l.filter p) (l'.filter q) := by
  induction hl with
  | nil => exact .nil
  | @cons a b l l' hab _ ih =>
    rw [List.filter_cons, List.filter_cons, h a b hab]
    split
    · exact .cons hab ih
    · exact ih

theorem arrange_rel {R : A → B → Prop} {ia : A → Option Nat} {ib : B → Option Nat} (h : ∀ a b, R a b → ia a = ib b)
    {l : List A} {l' : List B} (hl : List.Forall₂ R l l') : List.Forall₂ R (arrange ia l) (arrange ib l') := by
  unfold arrange
  refine List.rel_append ?_ ?_
  · refine (ascending_rel (R := R) ?_).imp fun _ _ h => h.1
    refine (filter_rel (R := fun x y => R x y ∧ (ia x).getD 0 = (ib y).getD 0) (fun a b hab => by rw [h a b hab.1]) ?_)
    exact hl.imp fun a b hab => ⟨hab, by rw [h a b hab]⟩
  · exact filter_rel (fun a b hab => by rw [h a b hab]) hl

theorem arrange_none {idx : A → Option Nat} {l : List A} (h : ∀ a ∈ l, idx a = none) : arrange idx l = l := by
  unfold arrange
  have h1 : (l.filter fun a => (idx a).isSome) = [] := List.filter_eq_nil_iff.2 fun a ha => by simp [h a ha]
  have h2 : (l.filter fun a => (idx a).isNone) = l := List.filter_eq_self.2 fun a ha => by simp [h a ha]
  rw [h1, h2]
  rfl

theorem filter_arrange {idx : A → Option Nat} {p : A → Bool} {l : List A} (h : ∀ a ∈ l, p a = true → idx a = none) :
    (arrange idx l).filter p = l.filter p := by
  unfold arrange
  rw [List.filter_append, List.filter_filter]
  have h1 : (ascending (fun a => (idx a).getD 0) (l.filter fun a => (idx a).isSome)).filter p = [] := by
    refine List.filter_eq_nil_iff.2 fun a ha hp => ?_
    have ha := List.mem_filter.1 ((ascending_perm _ _).mem_iff.1 ha)
    rw [h a ha.1 hp] at ha
    exact absurd ha.2 (by simp)
  rw [h1, List.nil_append]
  refine List.filter_congr fun a ha => ?_
  cases hp : p a with
  | false => rfl
  | true => simp [h a ha hp]

end

theorem not_inherits {h : List Obj} {a p : Nat} {cls : Cls} {ps : IndexMap String Cell} {k : String}
    (ha : h[a]? = some ⟨cls, some p, ps⟩) (hp : ¬ Inherits h p k) (hk : ps.get k = none) : ¬ Inherits h a k := by
  intro hi
  cases hi with
  | own obj prop =>
    rw [ha] at obj
    injection obj with obj
    subst obj
    rw [hk] at prop
    cases prop
  | proto obj proto above =>
    rw [ha] at obj
    injection obj with obj
    subst obj
    injection proto with proto
    subst proto
    exact hp above

end Js

mutual
/-- The members of every object in the order in which properties are listed. -/
def Data.arranged : Data → Data
  | .arr l => .arr (arrangedItems l)
  | .obj fs => .obj (Js.listed (arrangedFields fs))
  | .null => .null
  | .bool b => .bool b
  | .num n => .num n
  | .real t => .real t
  | .str s => .str s

/-- `arranged` for elements. -/
def Data.arrangedItems : List Data → List Data
  | [] => []
  | d :: l => d.arranged :: arrangedItems l

/-- `arranged` for members. -/
def Data.arrangedFields : List (String × Data) → List (String × Data)
  | [] => []
  | (k, d) :: l => (k, d.arranged) :: arrangedFields l
end

mutual
/-- No object has a member of the given name. -/
def Data.lacks (k : String) : Data → Bool
  | .arr l => lacksItems k l
  | .obj fs => lacksFields k fs
  | _ => true

/-- `lacks` for elements. -/
def Data.lacksItems (k : String) : List Data → Bool
  | [] => true
  | d :: l => d.lacks k && lacksItems k l

/-- `lacks` for members. -/
def Data.lacksFields (k : String) : List (String × Data) → Bool
  | [] => true
  | (k', d) :: l => decide (k' ≠ k) && d.lacks k && lacksFields k l
end

theorem Data.arrangedItems_eq (l : List Data) : arrangedItems l = l.map Data.arranged := by
  induction l with
  | nil => rfl
  | cons d l ih => rw [arrangedItems, ih]; rfl

theorem Data.arrangedFields_eq (l : List (String × Data)) :
    arrangedFields l = l.map fun e => (e.1, e.2.arranged) := by
  induction l with
  | nil => rfl
  | cons e l ih => obtain ⟨k, d⟩ := e; rw [arrangedFields, ih]; rfl

theorem Data.lacksFields_iff {k : String} {l : List (String × Data)} :
    lacksFields k l = true ↔ ∀ e ∈ l, e.1 ≠ k ∧ e.2.lacks k = true := by
  induction l with
  | nil => simp [lacksFields]
  | cons e l ih =>
    obtain ⟨k', d⟩ := e
    simp only [lacksFields, Bool.and_eq_true, decide_eq_true_eq, ih, List.mem_cons, forall_eq_or_imp]

theorem Data.lacksItems_iff {k : String} {l : List Data} :
    lacksItems k l = true ↔ ∀ d ∈ l, d.lacks k = true := by
  induction l with
  | nil => simp [lacksItems]
  | cons d l ih => simp only [lacksItems, Bool.and_eq_true, ih, List.mem_cons, forall_eq_or_imp]

namespace Js

/-- A property that is written as a tree. -/
def WrittenAs (h : List Obj) (s : List Nat) (p : String × Cell) (e : String × Data) : Prop :=
  p.1 = e.1 ∧ ∃ v, p.2 = .data v ∧ ∀ o, Writes h s v o ↔ o = some e.2.arranged

theorem writesAll_of {h : List Obj} {s : List Nat} {ps : List (String × Cell)} {fs : List (String × Data)}
    (hr : List.Forall₂ (WrittenAs h s) ps fs) (gs : List (String × Data)) :
    WritesAll h s ps gs ↔ gs = fs.map fun e => (e.1, e.2.arranged) := by
  induction hr generalizing gs with
  | nil =>
    constructor
    · intro hw
      cases hw
      rfl
    · rintro rfl
      exact .nil
  | @cons p e ps fs hp _ ih =>
    obtain ⟨k, c⟩ := p
    obtain ⟨k', d⟩ := e
    obtain ⟨hk, v, hv, ho⟩ := hp
    simp only at hk hv
    subst hk hv
    constructor
    · intro hw
      cases hw with
      | skip hw _ =>
        have := (ho _).1 hw
        cases this
      | keep hw hws =>
        have hd := (ho _).1 hw
        injection hd with hd
        rw [hd, (ih _).1 hws]
        rfl
    · rintro rfl
      exact .keep ((ho _).2 rfl) ((ih _).2 rfl)

theorem items_of {h : List Obj} {s : List Nat} {ps : List (String × Cell)} (l : List Data) (n : Nat)
    (hr : List.Forall₂ (WrittenAs h s) ps (indexed n l)) :
    ∃ vs, ps = itemCells n vs ∧ ∀ gs, WritesItems h s vs gs ↔ gs = l.map Data.arranged := by
  induction l generalizing n ps with
  | nil =>
    cases hr
    refine ⟨[], rfl, fun gs => ⟨fun hw => ?_, ?_⟩⟩
    · cases hw
      rfl
    · rintro rfl
      exact .nil
  | cons d l ih =>
    cases hr with
    | @cons p _ ps _ hp hr =>
      obtain ⟨vs, rfl, hvs⟩ := ih (n + 1) hr
      obtain ⟨k, c⟩ := p
      obtain ⟨hk, v, hv, ho⟩ := hp
      simp only at hk hv ho
      subst hk hv
      refine ⟨v :: vs, rfl, fun gs => ⟨fun hw => ?_, ?_⟩⟩
      · cases hw with
        | skip hw _ =>
          have := (ho _).1 hw
          cases this
        | keep hw hws =>
          have hd := (ho _).1 hw
          injection hd with hd
          rw [hd, (hvs _).1 hws]
          rfl
      · rintro rfl
        exact .keep ((ho _).2 rfl) ((hvs _).2 rfl)

theorem itemCells_inj {n : Nat} {vs vs' : List Value} (h : itemCells n vs = itemCells n vs') : vs = vs' := by
  induction vs generalizing n vs' with
  | nil =>
    cases vs' with
    | nil => rfl
    | cons v vs' => cases h
  | cons v vs ih =>
    cases vs' with
    | nil => cases h
    | cons v' vs' =>
      simp only [itemCells, List.cons.injEq, Prod.mk.injEq, Cell.data.injEq, true_and] at h
      rw [h.1, ih h.2]

theorem get_none_of {ps : IndexMap String Cell} {k : String} (h : ∀ e ∈ ps, e.1 ≠ k) : ps.get k = none := by
  induction ps with
  | nil => rfl
  | cons e ps ih =>
    obtain ⟨k', c⟩ := e
    simp only [IndexMap.get]
    rw [if_neg (h _ List.mem_cons_self)]
    exact ih fun e he => h e (List.mem_cons_of_mem _ he)

/-- What holds of the keys of the tree holds of the keys of the object. -/
theorem written_keys {h : List Obj} {s : List Nat} {ps : List (String × Cell)} {fs : List (String × Data)}
    (hr : List.Forall₂ (WrittenAs h s) ps fs) {k : String} (hk : ∀ e ∈ fs, e.1 ≠ k) : ∀ p ∈ ps, p.1 ≠ k := by
  induction hr with
  | nil => intro p hp; cases hp
  | @cons p e ps fs hpe _ ih =>
    intro q hq
    rcases List.mem_cons.1 hq with rfl | hq
    · rw [hpe.1]
      exact hk e List.mem_cons_self
    · exact ih (fun e he => hk e (List.mem_cons_of_mem _ he)) q hq

theorem written_data {h : List Obj} {s : List Nat} {ps : List (String × Cell)} {fs : List (String × Data)}
    (hr : List.Forall₂ (WrittenAs h s) ps fs) : ∀ k g, (k, Cell.getter g) ∉ ps := by
  induction hr with
  | nil => intro k g hp; cases hp
  | @cons p e ps fs hpe _ ih =>
    intro k g hq
    rcases List.mem_cons.1 hq with rfl | hq
    · obtain ⟨_, v, hv, _⟩ := hpe
      cases hv
    · exact ih k g hq

/-- An object without hooks and getters is written by its members. -/
theorem writes_obj {h : List Obj} {s : List Nat} {a : Nat} {ps : IndexMap String Cell}
    (ha : h[a]? = some ⟨.plain, some objectProto, ps⟩) (hn : NoHooks h) (hk : ps.get "toJSON" = none)
    (hg : ∀ k g, (k, Cell.getter g) ∉ ps) (hs : a ∉ s) (o : Option Data) :
    Writes h s (.ref a) o ↔ ∃ fs, o = some (.obj fs) ∧ WritesAll h (a :: s) (listed ps) fs := by
  have hni := not_inherits ha hn.object hk
  constructor
  · intro hw
    cases hw with
    | closure h1 _ => rw [ha] at h1; injection h1 with h1; injection h1 with h1; cases h1
    | hook _ h1 => exact absurd h1 hni
    | proxy _ h1 => rw [ha] at h1; injection h1 with h1; injection h1 with h1; cases h1
    | getter _ h1 h2 =>
      rw [ha] at h1
      injection h1 with h1
      subst h1
      exact absurd h2 (hg _ _)
    | obj h1 _ _ h2 =>
      rw [ha] at h1
      injection h1 with h1
      injection h1 with _ _ h1
      subst h1
      exact ⟨_, rfl, h2⟩
    | arr h1 => rw [ha] at h1; injection h1 with h1; injection h1 with h1; cases h1
    | oddArr _ h1 => rw [ha] at h1; injection h1 with h1; injection h1 with h1; cases h1
  · rintro ⟨fs, rfl, hw⟩
    exact .obj ha hni hs hw

mutual
/-- A tree is written as it is, members in the order in which properties are listed. -/
theorem Reads.writes {h : List Obj} {lo hi : Nat} {v : Value} {d : Data} (hn : NoHooks h) :
    Reads h lo hi v d → d.lacks "toJSON" = true → ∀ s : List Nat, (∀ x ∈ s, x < lo ∨ hi ≤ x) → ∀ o,
      (Writes h s v o ↔ o = some d.arranged)
  | .null _, _, s, _, o => ⟨fun hw => by cases hw; rfl, fun e => by subst e; exact .null⟩
  | .bool b _, _, s, _, o => ⟨fun hw => by cases hw; rfl, fun e => by subst e; exact .bool b⟩
  | .num n _, _, s, _, o => ⟨fun hw => by cases hw; rfl, fun e => by subst e; exact .num n⟩
  | .str x _, _, s, _, o => ⟨fun hw => by cases hw; rfl, fun e => by subst e; exact .str x⟩
  | @Reads.obj _ _ _ m a ps fs ha hm hlt hr, hl, s, hs, o => by
    have hl' : Data.lacksFields "toJSON" fs = true := hl
    have hle := hr.le
    have hrel := ReadsAll.written hn hr hl' (a :: s) (fun x hx => by
      rcases List.mem_cons.1 hx with rfl | hx
      · exact Or.inr hm
      · rcases hs x hx with hx | hx
        · exact Or.inl hx
        · exact Or.inr (by omega))
    have hkeys := written_keys hrel (k := "toJSON") fun e he => (Data.lacksFields_iff.1 hl' e he).1
    rw [writes_obj ha hn (get_none_of hkeys) (written_data hrel) (fun hx => by rcases hs a hx with h | h <;> omega) o]
    have hlist : List.Forall₂ (WrittenAs h (a :: s)) (listed ps) (listed fs) :=
      arrange_rel (fun p e hpe => by rw [hpe.1]) hrel
    have hmap : (listed fs).map (fun e => (e.1, e.2.arranged)) = listed (Data.arrangedFields fs) := by
      rw [Data.arrangedFields_eq]
      unfold listed
      rw [arrange_map]
    constructor
    · rintro ⟨gs, rfl, hw⟩
      rw [(writesAll_of hlist gs).1 hw, hmap]
      rfl
    · rintro rfl
      exact ⟨_, rfl, (writesAll_of hlist _).2 hmap.symm⟩
  | @Reads.arr _ _ _ m a ps l ha hm hlt hr, hl, s, hs, o => by
    have hl' : Data.lacksItems "toJSON" l = true := hl
    have hle := hr.le
    have hidx : ∀ (l : List Data) (n : Nat), Data.lacksItems "toJSON" l = true →
        Data.lacksFields "toJSON" (indexed n l) = true := by
      intro l
      induction l with
      | nil => intro n _; rfl
      | cons d l ih =>
        intro n hd
        simp only [Data.lacksItems, Bool.and_eq_true] at hd
        simp only [indexed, Data.lacksFields, Bool.and_eq_true, decide_eq_true_eq]
        refine ⟨⟨?_, hd.1⟩, ih _ hd.2⟩
        intro e
        have : ∀ x ∈ (toString n).toList, x.isDigit = true := by
          intro x hx
          rw [Nat.toString_eq_repr, Nat.toList_repr] at hx
          exact Nat.isDigit_of_mem_toDigits (by decide) (by decide) hx
        rw [e] at this
        exact absurd (this 't' (by decide)) (by decide)
    have hrel := ReadsAll.written hn hr (hidx l 0 hl') (a :: s) (fun x hx => by
      rcases List.mem_cons.1 hx with rfl | hx
      · exact Or.inr hm
      · rcases hs x hx with hx | hx
        · exact Or.inl hx
        · exact Or.inr (by omega))
    have hkeys := written_keys hrel (k := "toJSON") fun e he => (Data.lacksFields_iff.1 (hidx l 0 hl') e he).1
    have hni := not_inherits ha hn.array (get_none_of hkeys)
    have has : a ∉ s := fun hx => by rcases hs a hx with h | h <;> omega
    obtain ⟨vs, hps, hvs⟩ := items_of l 0 hrel
    subst hps
    constructor
    · intro hw
      cases hw with
      | closure h1 _ => rw [ha] at h1; injection h1 with h1; injection h1 with h1; cases h1
      | hook _ h1 => exact absurd h1 hni
      | proxy _ h1 => rw [ha] at h1; injection h1 with h1; injection h1 with h1; cases h1
      | getter _ h1 h2 =>
        rw [ha] at h1
        injection h1 with h1
        subst h1
        exact absurd h2 (written_data hrel _ _)
      | obj h1 => rw [ha] at h1; injection h1 with h1; injection h1 with h1; cases h1
      | arr h1 _ _ h2 =>
        rw [ha] at h1
        injection h1 with h1
        injection h1 with _ _ h1
        have := itemCells_inj h1
        subst this
        rw [(hvs _).1 h2, Data.arranged, Data.arrangedItems_eq]
      | oddArr _ h1 h2 =>
        rw [ha] at h1
        injection h1 with h1
        injection h1 with _ _ h1
        exact absurd h1.symm (h2 vs)
    · rintro rfl
      rw [Data.arranged, Data.arrangedItems_eq]
      exact .arr ha hni has ((hvs _).2 rfl)

theorem ReadsAll.written {h : List Obj} {lo hi : Nat} {ps : List (String × Cell)} {fs : List (String × Data)}
    (hn : NoHooks h) : ReadsAll h lo hi ps fs → Data.lacksFields "toJSON" fs = true →
      ∀ s : List Nat, (∀ x ∈ s, x < lo ∨ hi ≤ x) → List.Forall₂ (WrittenAs h s) ps fs
  | .nil _, _, _, _ => .nil
  | @ReadsAll.cons _ lo m hi k v d ps fs hr hrs, hl, s, hs => by
    simp only [Data.lacksFields, Bool.and_eq_true, decide_eq_true_eq] at hl
    have h1 := hr.le
    have h2 := hrs.le
    refine .cons ⟨rfl, v, rfl, Reads.writes hn hr hl.1.2 s fun x hx => ?_⟩ (ReadsAll.written hn hrs hl.2 s fun x hx => ?_)
    · rcases hs x hx with h | h
      · exact Or.inl h
      · exact Or.inr (by omega)
    · rcases hs x hx with h | h
      · exact Or.inl (by omega)
      · exact Or.inr h
end

end Js
end Verif
