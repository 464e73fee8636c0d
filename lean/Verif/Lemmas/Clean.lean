import Verif.Lemmas.StepsInv
/-
Programs without injected nodes.
-/
namespace Verif
open Node

namespace Node

theorem clean_mk {k : Kind} {sp : Span} {cs : List Node} :
    Clean (mk k sp cs) ↔ k.injected = false ∧ ∀ c ∈ cs, Clean c := by
  unfold Clean
  rw [any_mk, Bool.or_eq_false_iff, List.any_eq_false]
  simp

/-- A clean program has no counters. -/
theorem clean_sites {n : Node} (h : Clean n) : n.sites = [] := by
  induction n using Node.ind with
  | h k sp cs ih =>
    obtain ⟨h1, h2⟩ := clean_mk.1 h
    have hl : ∀ l : List Node, (∀ c ∈ l, c ∈ cs) → sitesList l = [] := by
      intro l hl
      induction l with
      | nil => rfl
      | cons c l ihl =>
        rw [sitesList_cons, ih c (hl c (by simp)) (h2 c (hl c (by simp))),
          ihl fun x hx => hl x (by simp [hx])]
        rfl
    rw [sites_mk, hl cs fun c hc => hc]
    cases k <;> first | rfl | simp [Kind.injected] at h1

theorem clean_not_item {n : Node} (h : Clean n) : isInjectedItem n = false := by
  obtain ⟨k, sp, cs⟩ := n
  obtain ⟨h1, h2⟩ := clean_mk.1 h
  unfold isInjectedItem
  have h3 : isCounterStmt (mk k sp cs) = false := by
    unfold isCounterStmt
    split
    · next heq =>
      cases heq
      have := (clean_mk.1 (h2 _ (List.mem_singleton.2 rfl))).1
      simp [Kind.injected] at this
    · rfl
  rw [h3]
  cases k <;> first | rfl | simp [Kind.injected] at h1

theorem clean_unwrap {n : Node} (h : Clean n) : unwrap n = n := by
  unfold unwrap
  split
  · have h1 := (clean_mk.1 h).2 _ (List.mem_singleton.2 rfl)
    have h2 := (clean_mk.1 h1).2 _ (List.mem_cons_self ..)
    have := (clean_mk.1 h2).1
    simp [Kind.injected] at this
  · have h2 := (clean_mk.1 h).2 _ (List.mem_cons_self ..)
    have := (clean_mk.1 h2).1
    simp [Kind.injected] at this
  · rfl

theorem clean_asBlock {n : Node} (h : Clean n) :
    asBlock n = if n.kind = .block then n else mk .block Span.dummy [n] := by
  by_cases hk : n.kind = .block
  · rw [if_pos hk]
    obtain ⟨k, sp, cs⟩ := n
    cases hk; rfl
  · rw [if_neg hk, asBlock_of_ne hk, clean_not_item h]; rfl

theorem clean_block {sp : Span} {cs : List Node} (h : ∀ c ∈ cs, Clean c) : Clean (mk .block sp cs) :=
  clean_mk.2 ⟨rfl, h⟩

theorem clean_asArrowBody {n : Node} (h : Clean n) : Clean (asArrowBody n) := by
  have hret : ∀ {e : Node} (sp : Span), Clean e → Clean (mk .returnStmt sp [e]) := by
    intro e sp he
    refine clean_mk.2 ⟨rfl, fun c hc => ?_⟩
    cases List.mem_singleton.1 hc
    exact he
  unfold asArrowBody
  split
  · exact h
  · refine clean_block fun c hc => ?_
    cases List.mem_singleton.1 hc
    exact hret _ h

theorem mapLast_mem {f : Node → Node} {l : List Node} {x : Node} (h : x ∈ mapLast f l) :
    x ∈ l ∨ ∃ y ∈ l, x = f y := by
  induction l with
  | nil => cases h
  | cons c l ih =>
    cases l with
    | nil => exact .inr ⟨c, by simp, by simpa [mapLast] using h⟩
    | cons d l =>
      rw [mapLast] at h
      · rcases List.mem_cons.1 h with rfl | h
        · exact .inl (by simp)
        · rcases ih h with h | ⟨y, hy, h⟩
          · exact .inl (List.mem_cons_of_mem _ h)
          · exact .inr ⟨y, List.mem_cons_of_mem _ hy, h⟩
      · simp

theorem mapLast_congr {f g : Node → Node} {l : List Node} (h : ∀ x ∈ l, f x = g x) :
    mapLast f l = mapLast g l := by
  induction l with
  | nil => rfl
  | cons c l ih =>
    cases l with
    | nil => simp [mapLast, h c (by simp)]
    | cons d l =>
      have h1 : ∀ f : Node → Node, mapLast f (c :: d :: l) = c :: mapLast f (d :: l) := fun f => by
        rw [mapLast]; simp
      rw [h1, h1, ih fun x hx => h x (List.mem_cons_of_mem _ hx)]

/-- Normal forms of clean bodies are clean. -/
theorem clean_tidyBodies {k : Kind} {cs : List Node} (h : ∀ c ∈ cs, Clean c) :
    ∀ c ∈ tidyBodies k cs, Clean c := by
  have hb : ∀ {c : Node}, Clean c → Clean (if c.kind = .block then c else mk .block Span.dummy [c]) := by
    intro c hc
    split
    · exact hc
    · refine clean_block fun x hx => ?_
      cases List.mem_singleton.1 hx
      exact hc
  unfold tidyBodies
  split
  · next test cons alt =>
    intro c hc
    simp only [List.mem_cons, List.not_mem_nil, or_false] at hc
    rcases hc with rfl | rfl | rfl
    · exact h _ (by simp)
    · exact hb (h _ (by simp))
    · split
      · exact clean_block (by simp)
      · exact hb (h _ (by simp))
  · intro c hc
    rcases mapLast_mem hc with hc | ⟨y, hy, rfl⟩
    · exact h c hc
    · exact hb (h y hy)
  · intro c hc
    simp only [List.mem_cons, List.not_mem_nil, or_false] at hc
    rcases hc with rfl | rfl
    · exact h _ (by simp)
    · exact hb (h _ (by simp))
  · intro c hc
    simp only [List.mem_cons, List.not_mem_nil, or_false] at hc
    rcases hc with rfl | rfl
    · exact h _ (by simp)
    · exact clean_asArrowBody (h _ (by simp))
  · exact h

/-- On clean trees deleting counters does nothing. -/
theorem clean_tidy {k : Kind} {cs : List Node} (h : ∀ c ∈ cs, Clean c) : tidy k cs = tidyBodies k cs := by
  have hf : ∀ ss : List Node, (∀ c ∈ ss, Clean c) → ss.filter (fun s => !isInjectedItem s) = ss := by
    intro ss hs
    rw [List.filter_eq_self]
    intro a ha
    rw [clean_not_item (hs a ha)]; rfl
  have hw : ∀ ss : List Node, (∀ c ∈ ss, Clean c) → ss.map unwrap = ss := by
    intro ss hs
    conv => rhs; rw [← List.map_id ss]
    exact List.map_congr_left fun a ha => clean_unwrap (hs a ha)
  unfold tidy
  split
  · simp only [tidyBodies]; exact hf _ h
  · simp only [tidyBodies]; exact hf _ h
  · simp only [tidyBodies]; exact hf _ h
  · next test ss =>
    simp only [tidyBodies]
    rw [hf ss fun c hc => h c (by simp [hc])]
  · next test cons alt =>
    simp only [tidyBodies, asElse]
    rw [clean_asBlock (h cons (by simp)), clean_asBlock (h alt (by simp))]
  · simp only [tidyBodies]
    exact mapLast_congr fun x hx => clean_asBlock (h x hx)
  · next obj body =>
    simp only [tidyBodies]
    rw [clean_asBlock (h body (by simp))]
  · simp only [tidyBodies]
  · next h1 h2 h3 h4 h5 h6 h7 h8 =>
    have : tidyBodies k cs = cs := by
      unfold tidyBodies
      split
      · exact (h6 _ _ _ rfl rfl).elim
      · exact (h4 _ rfl).elim
      · exact (h7 _ _ rfl rfl).elim
      · exact (h8 _ _ _ rfl rfl).elim
      · rfl
    rw [this]
    split
    · exact hw _ h
    · rfl

/-- Clean programs stay clean. -/
theorem clean_norm {n : Node} (h : Clean n) : Clean (norm n) := by
  induction n using Node.ind with
  | h k sp cs ih =>
    obtain ⟨h1, h2⟩ := clean_mk.1 h
    rw [norm, normList_eq]
    refine clean_mk.2 ⟨h1, clean_tidyBodies fun c hc => ?_⟩
    obtain ⟨d, hd, rfl⟩ := List.mem_map.1 hc
    exact ih d hd (h2 d hd)

/-- Deleting the counters of a clean program is bringing it into normal form. -/
theorem clean_strip {n : Node} (h : Clean n) : strip n = norm n := by
  induction n using Node.ind with
  | h k sp cs ih =>
    obtain ⟨h1, h2⟩ := clean_mk.1 h
    rw [strip_mk, norm, normList_eq]
    have : cs.map strip = cs.map norm := List.map_congr_left fun c hc => ih c hc (h2 c hc)
    rw [this, clean_tidy]
    intro c hc
    obtain ⟨d, hd, rfl⟩ := List.mem_map.1 hc
    exact clean_norm (h2 d hd)

end Node
end Verif
