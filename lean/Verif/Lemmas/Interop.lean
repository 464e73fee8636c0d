import Verif.Spec.Interop
import Verif.Lemmas.Serde
import Verif.Lemmas.Grammar
/-
Lemmas for Props/Interop.
-/
namespace Verif

namespace Interop

/-! ### Maps -/

theorem sameKey_num (a b : Nat) : sameKey (.num a) (.num b) = decide (a = b) := rfl

theorem setEntry_new {k : Nat} {v : JsVal} : ∀ {l : List (JsVal × JsVal)} {ns : List Nat}, l.map (·.1) = ns.map .num → k ∉ ns →
    setEntry (.num k) v l = l ++ [(.num k, v)]
  | [], _, _, _ => rfl
  | e :: l, [], h, _ => by simp at h
  | e :: l, n :: ns, h, hk => by
    simp only [List.map_cons, List.cons.injEq] at h
    have hne : ¬ n = k := fun hh => hk (hh ▸ List.mem_cons_self)
    simp only [setEntry, h.1, sameKey_num, hne, decide_false, Bool.false_eq_true, if_false, List.cons_append,
      setEntry_new h.2 fun hh => hk (List.mem_cons_of_mem _ hh)]

theorem foldl_setEntry {V : Type} (f : V → JsVal) : ∀ (l m : IndexMap Nat V), IndexMap.NodupKeys (m ++ l) →
    l.foldl (fun l e => setEntry (.num e.1) (f e.2) l) (m.map fun e => (JsVal.num e.1, f e.2)) =
      (m ++ l).map fun e => (JsVal.num e.1, f e.2)
  | [], m, _ => by simp
  | e :: l, m, h => by
    have hn : e.1 ∉ m.map (·.1) := by
      intro hm
      unfold IndexMap.NodupKeys IndexMap.keys at h
      rw [List.map_append, List.nodup_append] at h
      exact h.2.2 _ hm e.1 (by simp) rfl
    rw [List.foldl_cons, setEntry_new (ns := m.map (·.1)) (by simp) hn]
    have := foldl_setEntry f l (m ++ [e]) (by simpa using h)
    simpa using this

/-- A table without a key twice becomes a `Map` with its entries in their order. -/
theorem toMap_eq {V : Type} (f : V → JsVal) {m : IndexMap Nat V} (h : m.NodupKeys) :
    toMap f m = .map (m.map fun e => (.num e.1, f e.2)) := by
  unfold toMap
  have := foldl_setEntry f m [] (by simpa using h)
  simpa using this

theorem getEntry_num {V : Type} (f : V → JsVal) (k : Nat) : ∀ m : IndexMap Nat V,
    getEntry (.num k) (m.map fun e => (JsVal.num e.1, f e.2)) = ((m.get k).map f).getD .undefined
  | [] => rfl
  | (n, v) :: m => by
    simp only [List.map_cons, getEntry, sameKey_num, IndexMap.get, decide_eq_true_eq, getEntry_num f k m]
    split <;> rfl

theorem getEntry_other {V : Type} (f : V → JsVal) (k : JsVal) (hk : ∀ n, k ≠ .num n) : ∀ m : IndexMap Nat V,
    getEntry k (m.map fun e => (JsVal.num e.1, f e.2)) = .undefined
  | [] => rfl
  | (n, v) :: m => by
    have : sameKey (.num n) k = false := by
      cases k <;> first | rfl | exact absurd rfl (hk _)
    simp only [List.map_cons, getEntry, this, Bool.false_eq_true, if_false, getEntry_other f k hk m]

theorem get_toMap {V : Type} (f : V → JsVal) {m : IndexMap Nat V} (h : m.NodupKeys) (k : Nat) :
    (toMap f m).get (.num k) = ((m.get k).map f).getD .undefined := by
  rw [toMap_eq f h]
  exact getEntry_num f k m

theorem item_toArr (l : List Nat) (i : Nat) : ((toArr .num l).item i).nat = l[i]? := by
  simp only [toArr, JsVal.item, List.getElem?_map]
  cases l[i]? <;> rfl


theorem nat_get_toMap {m : IndexMap Nat Nat} (h : m.NodupKeys) (k : Nat) : ((toMap .num m).get (.num k)).nat = m.get k := by
  rw [get_toMap _ h]
  cases m.get k <;> rfl

/-! ### Decimal keys -/

theorem digitChar_val {c : Char} (h : Json.isDigit c = true) : c.toNat - 48 < 10 ∧ Nat.digitChar (c.toNat - 48) = c := by
  have h1 : 48 ≤ c.toNat ∧ c.toNat ≤ 57 := by
    unfold Json.isDigit Char.isDigit at h
    simp only [Bool.and_eq_true, decide_eq_true_eq] at h
    exact h
  refine ⟨by omega, ?_⟩
  have h2 : ∀ n, n < 10 → Nat.digitChar n = Char.ofNat (n + 48) := by decide
  rw [h2 _ (by omega), Nat.sub_add_cancel h1.1]
  exact Char.ofNat_toNat c

theorem toDigits_go : ∀ (ds : List Char) (n : Nat), 0 < n → (∀ c ∈ ds, Json.isDigit c = true) →
    Nat.toDigits 10 (Nat.ofDigitChars 10 ds n) = Nat.toDigits 10 n ++ ds
  | [], n, _, _ => by simp [Nat.ofDigitChars_nil]
  | c :: ds, n, hn, h => by
    obtain ⟨h1, h2⟩ := digitChar_val (h c List.mem_cons_self)
    rw [Nat.ofDigitChars_cons, toDigits_go ds _ (by omega) fun x hx => h x (List.mem_cons_of_mem _ hx)]
    have := Nat.toDigits_append_toDigits (b := 10) (n := n) (d := c.toNat - 48) (by decide) hn h1
    rw [Nat.toDigits_of_lt_base h1, h2] at this
    simp only [Char.toNat] at *
    rw [show ('0'.val.toNat) = 48 from rfl, ← this]
    simp

theorem digits_isDigit : ∀ l, ∀ c ∈ (Json.digits l).1, Json.isDigit c = true
  | [], _, h => by simp [Json.digits] at h
  | a :: l, c, h => by
    unfold Json.digits at h
    split at h
    · rcases List.mem_cons.1 h with rfl | h
      · assumption
      · exact digits_isDigit l c h
    · simp at h

/-- Only the usual decimal notation of a number is read as a key. -/
theorem key_spelled {s : String} {n : Nat} (h : Serde.key s = some n) : s = toString n := by
  unfold Serde.key at h
  split at h
  next m hm =>
    have hn : m = n := by
      have hh : (if m < 2 ^ 32 then some m else none) = some n := h
      split at hh
      · exact Option.some.inj hh
      · exact absurd hh (by simp)
    subst hn
    unfold Json.number at hm
    split at hm
    · cases hm
    · rename_i d ds r hd
      split at hm
      · cases hm
      · rename_i h0
        have hsplit := (Json.digits_split s.toList).1
        have hdig := digits_isDigit s.toList
        rw [hd] at hsplit hdig
        split at hm
        · cases hm
        · rename_i fr l1 hf
          split at hm
          · cases hm
          · rename_i ex l2 he
            split at hm
            · rename_i hb
              simp only [Option.some.injEq, Prod.mk.injEq, Data.num.injEq] at hm
              obtain ⟨hm1, rfl⟩ := hm
              have hr : r = [] := by
                obtain ⟨rfl, rfl⟩ := hb
                have e1 : l1 = [] := by
                  cases l1 with
                  | nil => rfl
                  | cons c l1 =>
                    unfold Json.exponent at he
                    split at he <;> grind
                cases r with
                | nil => rfl
                | cons c r =>
                  unfold Json.fraction at hf
                  split at hf <;> grind
              subst hr
              rw [List.append_nil] at hsplit
              have key : Nat.toDigits 10 m = d :: ds := by
                rw [← hm1, Nat.ofDigitChars_cons]
                obtain ⟨k1, k2⟩ := digitChar_val (hdig d List.mem_cons_self)
                by_cases hz : ds = []
                · subst hz
                  rw [Nat.ofDigitChars_nil]
                  simp only [Char.toNat] at *
                  rw [show ('0'.val.toNat) = 48 from rfl, Nat.mul_zero, Nat.zero_add, Nat.toDigits_of_lt_base k1, k2]
                · have hpos : 0 < d.toNat - 48 := by
                    rcases Nat.eq_zero_or_pos (d.toNat - 48) with hh | hh
                    · rw [hh] at k2
                      exact absurd ⟨k2.symm, hz⟩ h0
                    · exact hh
                  have := toDigits_go ds (d.toNat - 48) hpos fun x hx => hdig x (List.mem_cons_of_mem _ hx)
                  rw [Nat.toDigits_of_lt_base k1, k2] at this
                  simp only [Char.toNat] at *
                  rw [show ('0'.val.toNat) = 48 from rfl, Nat.mul_zero, Nat.zero_add, this]
                  rfl
              have hs : s.toList = d :: ds := hsplit
              rw [Nat.toString_eq_ofList_toDigits, key, ← hs, String.ofList_toList]
            · simp at hm
  · cases h

/-! ### What was read -/

theorem readAll_pairs {A V : Type} {f : A → Option V} : ∀ {l : List A} {vs : List V}, Serde.readAll f l = some vs →
    List.Forall₂ (fun a v => f a = some v) l vs
  | [], vs, h => by simp only [Serde.readAll, Option.some.injEq] at h; subst h; exact .nil
  | a :: l, vs, h => by
    unfold Serde.readAll at h
    split at h
    · cases h
    · rename_i v hv
      obtain ⟨vs', h', rfl⟩ := Option.map_eq_some_iff.1 h
      exact .cons hv (readAll_pairs h')

theorem forall₂_at {A B : Type} {R : A → B → Prop} {l : List A} {l' : List B} (h : List.Forall₂ R l l') :
    l.length = l'.length ∧ ∀ (i : Nat) a b, l[i]? = some a → l'[i]? = some b → R a b := by
  induction h with
  | nil => exact ⟨rfl, fun i a b h => by simp at h⟩
  | cons hab _ ih =>
    refine ⟨by simp [ih.1], fun i a b ha hb => ?_⟩
    cases i with
    | zero =>
      simp only [List.getElem?_cons_zero, Option.some.injEq] at ha hb
      exact ha ▸ hb ▸ hab
    | succ i => exact ih.2 i a b (by simpa using ha) (by simpa using hb)

theorem depicts_num {d : Data} {n : Nat} (h : Serde.u32 d = some n) : Depicts d (.num n) := by
  cases d <;> simp only [Serde.u32, reduceCtorEq] at h
  split at h
  · simp only [Option.some.injEq] at h
    exact h ▸ .num _
  · cases h

theorem depicts_arr {V : Type} {f : Data → Option V} {g : V → JsVal} (hf : ∀ d v, f d = some v → Depicts d (g v)) {d : Data}
    {l : List V} (h : Serde.vec f d = some l) : Depicts d (toArr g l) := by
  cases d <;> simp only [Serde.vec, reduceCtorEq] at h
  obtain ⟨h1, h2⟩ := forall₂_at (readAll_pairs h)
  refine .arr (by simpa using h1) fun i a b ha hb => ?_
  rw [List.getElem?_map] at hb
  obtain ⟨v, hv, rfl⟩ := Option.map_eq_some_iff.1 hb
  exact hf _ _ (h2 i a v ha hv)

theorem depicts_map {V : Type} {f : Data → Option V} {g : V → JsVal} (hf : ∀ d v, f d = some v → Depicts d (g v))
    {ms : List (String × Data)} {m : IndexMap Nat V} (h : Serde.map f (.obj ms) = some m) (hn : (ms.map (·.1)).Nodup) :
    Depicts (.obj ms) (toMap g m) := by
  obtain ⟨l, hl, rfl⟩ := Option.map_eq_some_iff.1 h
  have hp := readAll_pairs hl
  have he : ∀ a v, Serde.entry f a = some v → a.1 = toString v.1 ∧ f a.2 = some v.2 := by
    intro a v ha
    unfold Serde.entry at ha
    split at ha
    · cases ha
    · rename_i n hk
      obtain ⟨x, hx, rfl⟩ := Option.map_eq_some_iff.1 ha
      exact ⟨key_spelled hk, hx⟩
  have hnames : ms.map (·.1) = (l.map (·.1)).map toString := by
    clear hl h hn
    induction hp with
    | nil => rfl
    | cons hab _ ih => simp only [List.map_cons, ih, (he _ _ hab).1]
  have hnd : IndexMap.NodupKeys l := by
    unfold IndexMap.NodupKeys IndexMap.keys
    rw [hnames] at hn
    rw [List.nodup_iff_pairwise_ne, List.pairwise_map] at hn
    exact hn.imp fun h h' => h (congrArg _ h')
  rw [Serde.foldl_insert l [] (by simpa using hnd), List.nil_append, toMap_eq g hnd]
  obtain ⟨_, h2⟩ := forall₂_at hp
  refine .map (ns := l.map (·.1)) hnames (by simp) fun i a b ha hb => ?_
  rw [List.getElem?_map] at hb
  obtain ⟨v, hv, rfl⟩ := Option.map_eq_some_iff.1 hb
  exact hf _ _ (he _ _ (h2 i a v ha hv)).2

theorem depicts_obj {l : List (String × Data)} {l' : List (String × JsVal)}
    (h : List.Forall₂ (fun a b => a.1 = b.1 ∧ Depicts a.2 b.2) l l') : Depicts (.obj l) (.obj l') := by
  refine .obj ?_ fun i a b ha hb => ((forall₂_at h).2 i a b ha hb).2
  induction h with
  | nil => rfl
  | cons hab _ ih => simp only [List.map_cons, hab.1, ih]

theorem forall₂_skip {V : Type} (k : String) {f : V → Data} {g : V → JsVal} {o : Option V} (h : ∀ v ∈ o, Depicts (f v) (g v)) :
    List.Forall₂ (fun a b => a.1 = b.1 ∧ Depicts a.2 b.2) (Serde.skipNone k f o) (skipNone k g o) := by
  cases o with
  | none => exact .nil
  | some v => exact .cons ⟨rfl, h v rfl⟩ .nil

theorem forall₂_append' {A B : Type} {R : A → B → Prop} {l m : List A} {l' m' : List B} (h : List.Forall₂ R l l')
    (h' : List.Forall₂ R m m') : List.Forall₂ R (l ++ m) (l' ++ m') := by
  induction h with
  | nil => exact h'
  | cons hab _ ih => exact .cons hab ih

/-! ### Members that are left out -/

theorem member_filter (p : String → Bool) (k : String) (hk : p k = true) : ∀ fs : List (String × Data),
    Serde.member (fs.filter fun e => p e.1) k = Serde.member fs k
  | [] => rfl
  | (n, d) :: fs => by
    have ih := member_filter p k hk fs
    unfold Serde.member at *
    by_cases hn : n = k
    · subst hn
      simp only [List.filter_cons, hk, if_true, IndexMap.get]
    · cases hp : p n
      · simp only [List.filter_cons, hp, Bool.false_eq_true, if_false, IndexMap.get, hn, ih]
      · simp only [List.filter_cons, hp, if_true, IndexMap.get, hn, if_false, ih]

theorem struct_filter (p : String → Bool) (known : List String) (hk : ∀ k ∈ known, p k = true) (fs : List (String × Data)) :
    Serde.struct known (.obj (fs.filter fun e => p e.1)) = (Serde.struct known (.obj fs)).map (List.filter fun e => p e.1) := by
  unfold Serde.struct
  have : (known.all fun k => decide (((fs.filter fun e => p e.1).filter fun e => decide (e.1 = k)).length ≤ 1)) =
      known.all fun k => decide ((fs.filter fun e => decide (e.1 = k)).length ≤ 1) := by
    rw [Bool.eq_iff_iff]
    simp only [List.all_eq_true, decide_eq_true_eq]
    refine forall_congr' fun k => forall_congr' fun hkk => ?_
    rw [List.filter_filter]
    have : (fs.filter fun a => decide (a.1 = k) && p a.1) = fs.filter fun e => decide (e.1 = k) := by
      refine List.filter_congr fun e _ => ?_
      by_cases he : e.1 = k
      · simp [he, hk k hkk]
      · simp [he]
    rw [this]
  simp only [this]
  split <;> rfl

theorem coverage_filter (p : String → Bool) (hk : ∀ k ∈ ["all", "path", "statementMap", "fnMap", "branchMap", "s", "f", "b", "bT", "inputSourceMap"], p k = true)
    (fs : List (String × Data)) : Serde.coverage (.obj (fs.filter fun e => p e.1)) = Serde.coverage (.obj fs) := by
  unfold Serde.coverage
  rw [struct_filter p _ hk]
  have hm : ∀ k ∈ ["all", "path", "statementMap", "fnMap", "branchMap", "s", "f", "b", "bT", "inputSourceMap"],
      Serde.member (fs.filter fun e => p e.1) k = Serde.member fs k := fun k hkk => member_filter p k (hk k hkk) fs
  have e : Serde.struct ["all", "path", "statementMap", "fnMap", "branchMap", "s", "f", "b", "bT", "inputSourceMap"] (.obj fs) = some fs ∨
      Serde.struct ["all", "path", "statementMap", "fnMap", "branchMap", "s", "f", "b", "bT", "inputSourceMap"] (.obj fs) = none := by
    unfold Serde.struct
    dsimp only
    split
    · exact .inl rfl
    · exact .inr rfl
  rcases e with e | e
  · rw [e]
    simp only [Option.map_some, Option.bind_eq_bind, Option.bind_some, Serde.required, Serde.withDefault, Serde.optional]
    rw [hm "all" (by simp), hm "path" (by simp), hm "statementMap" (by simp), hm "fnMap" (by simp), hm "branchMap" (by simp), hm "s" (by simp),
      hm "f" (by simp), hm "b" (by simp), hm "bT" (by simp), hm "inputSourceMap" (by simp)]
  · rw [e]
    rfl

theorem wholeFields_filter (p : String × Data → Bool) : ∀ fs, Json.wholeFields fs = true → Json.wholeFields (fs.filter p) = true
  | [], _ => rfl
  | (k, d) :: fs, h => by
    simp only [Json.wholeFields, Bool.and_eq_true] at h
    have ih := wholeFields_filter p fs h.2
    rw [List.filter_cons]
    split
    · simp only [Json.wholeFields, h.1, ih, Bool.and_self]
    · exact ih

theorem heightFields_filter (p : String × Data → Bool) : ∀ fs, Json.heightFields (fs.filter p) ≤ Json.heightFields fs
  | [] => Nat.le_refl _
  | (k, d) :: fs => by
    have ih := heightFields_filter p fs
    rw [List.filter_cons]
    split
    · simp only [Json.heightFields]; omega
    · simp only [Json.heightFields]; omega

end Interop
end Verif
