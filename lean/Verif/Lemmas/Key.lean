import Verif.Model.FileCoverage
import Std.Data.String.ToNat
namespace Verif

/-- A digit is not the separator. -/
theorem not_sep_of_repr {n : Nat} {c : Char} (h : c ∈ n.repr.toList) : c ≠ '|' := by
  have hd : c.isDigit := by
    have : c ∈ Nat.toDigits 10 n := by simpa [Nat.repr] using h
    exact Nat.isDigit_of_mem_toDigits (by decide) (by decide) this
  intro e; subst e; revert hd; decide

theorem append_sep_inj {a b : List Char} (ha : ∀ c ∈ a, c ≠ '|') (hb : ∀ c ∈ b, c ≠ '|')
    {s t : List Char} (h : a ++ '|' :: s = b ++ '|' :: t) : a = b ∧ s = t := by
  induction a generalizing b with
  | nil =>
    cases b with
    | nil => simpa using h
    | cons c b =>
      simp only [List.nil_append, List.cons_append, List.cons.injEq] at h
      exact absurd h.1.symm (hb c List.mem_cons_self)
  | cons c a ih =>
    cases b with
    | nil =>
      simp only [List.nil_append, List.cons_append, List.cons.injEq] at h
      exact absurd h.1 (ha c List.mem_cons_self)
    | cons d b =>
      simp only [List.cons_append, List.cons.injEq] at h
      have := ih (fun x hx => ha x (List.mem_cons_of_mem _ hx))
        (fun x hx => hb x (List.mem_cons_of_mem _ hx)) h.2
      exact ⟨by rw [h.1, this.1], this.2⟩

theorem keyFromLoc_inj {r r' : Range} (h : keyFromLoc r = keyFromLoc r') : r = r' := by
  have h' : (keyFromLoc r).toList = (keyFromLoc r').toList := by rw [h]
  have e : "|".toList = ['|'] := rfl
  simp only [keyFromLoc, String.toList_append, List.append_assoc, e,
    List.cons_append, List.nil_append] at h'
  have hs : ∀ n : Nat, ∀ c ∈ (toString n).toList, c ≠ '|' := fun n c hc => not_sep_of_repr hc
  obtain ⟨h1, h'⟩ := append_sep_inj (hs _) (hs _) h'
  obtain ⟨h2, h'⟩ := append_sep_inj (hs _) (hs _) h'
  obtain ⟨h3, h4⟩ := append_sep_inj (hs _) (hs _) h'
  have inj : ∀ {m n : Nat}, (toString m).toList = (toString n).toList → m = n := by
    intro m n hmn
    exact Nat.repr_injective (String.toList_inj.1 hmn)
  obtain ⟨⟨a, b⟩, c, d⟩ := r
  obtain ⟨⟨a', b'⟩, c', d'⟩ := r'
  simp only at h1 h2 h3 h4
  rw [inj h1, inj h2, inj h3, inj h4]

theorem keyFromLoc_inj_iff {r r' : Range} : keyFromLoc r = keyFromLoc r' ↔ r = r' :=
  ⟨keyFromLoc_inj, fun h => by rw [h]⟩

end Verif
