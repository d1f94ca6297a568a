/-! # A fair scheduler

For countably many kinds of events, every state of a transition system can be continued by an execution in which every kind
that is possible again and again happens again and again. -/

namespace Nargun.Scheduler

variable {S E : Type} (R : S → E → S → Prop) (A : Nat → E → Prop)

/-- An event of kind `i` is possible. -/
def Can (s : S) (i : Nat) : Prop := ∃ e s', A i e ∧ R s e s'

theorem first_split {P : Nat → Prop} {q : List Nat} (h : ∃ i, i ∈ q ∧ P i) :
    ∃ pre j post, q = pre ++ j :: post ∧ P j ∧ ∀ k ∈ pre, ¬ P k := by
  induction q with
  | nil => obtain ⟨i, hi, _⟩ := h; cases hi
  | cons a q ih =>
    by_cases ha : P a
    · exact ⟨[], a, q, rfl, ha, by simp⟩
    · obtain ⟨pre, j, post, h1, h2, h3⟩ := ih (by
        obtain ⟨i, hi, hp⟩ := h
        rcases List.mem_cons.mp hi with rfl | hi
        · exact absurd hp ha
        · exact ⟨i, hi, hp⟩)
      refine ⟨a :: pre, j, post, by rw [h1]; rfl, h2, ?_⟩
      intro k hk
      rcases List.mem_cons.mp hk with rfl | hk
      · exact ha
      · exact h3 k hk

/-- One step of the scheduler: of the kinds in the queue, the first that is possible gets its turn and goes to the end. -/
theorem turn (s : S) (q : List Nat) (n : Nat) : ∃ (e : Option E) (s' : S) (q' : List Nat),
    (∀ x, e = some x → R s x s') ∧ (e = none → s' = s) ∧ n ∈ q' ∧
    ∀ i, i ∈ q → i ∈ q' ∧ ((∃ x, e = some x ∧ A i x) ∨
      (q'.idxOf i ≤ q.idxOf i ∧ (Can R A s i → q'.idxOf i < q.idxOf i))) := by
  by_cases h : ∃ i, i ∈ q ∧ Can R A s i
  · obtain ⟨pre, j, post, h1, ⟨e, s', h2, h3⟩, h4⟩ := first_split h
    refine ⟨some e, s', pre ++ (post ++ [j, n]), by rintro x ⟨⟩; exact h3, by simp, by simp, ?_⟩
    intro i hi
    subst h1
    by_cases hij : i = j
    · exact ⟨by simp [hij], .inl ⟨e, rfl, hij ▸ h2⟩⟩
    · have hmem : i ∈ pre ∨ i ∈ post := by simpa [hij] using hi
      refine ⟨by rcases hmem with h | h <;> simp [h], .inr ?_⟩
      by_cases hp : i ∈ pre
      · simp only [List.idxOf_append, if_pos hp]
        exact ⟨Nat.le_refl _, fun hc => absurd hc (h4 i hp)⟩
      · have hpost := hmem.resolve_left hp
        simp only [List.idxOf_append, if_neg hp, if_pos hpost]
        have : (j :: post).idxOf i = post.idxOf i + 1 := by
          rw [List.idxOf_cons, beq_false_of_ne (Ne.symm hij)]; rfl
        rw [this]
        exact ⟨by omega, fun _ => by omega⟩
  · refine ⟨none, s, q ++ [n], by simp, fun _ => rfl, by simp, ?_⟩
    intro i hi
    refine ⟨by simp [hi], .inr ?_⟩
    rw [List.idxOf_append, if_pos hi]
    exact ⟨Nat.le_refl _, fun hc => absurd ⟨i, hi, hc⟩ h⟩

/-- Every state can be continued by a fair execution. -/
theorem fair (s0 : S) : ∃ (σ : Nat → S) (ev : Nat → Option E), σ 0 = s0 ∧ (∀ n e, ev n = some e → R (σ n) e (σ (n + 1))) ∧
    (∀ n, ev n = none → σ (n + 1) = σ n) ∧
    ∀ i, (∀ n, ∃ m, n ≤ m ∧ Can R A (σ m) i) → ∀ n, ∃ m e, n ≤ m ∧ ev m = some e ∧ A i e := by
  have ht := fun (x : S × List Nat) (n : Nat) => turn R A x.1 x.2 n
  let E' : S × List Nat → Nat → Option E := fun x n => Classical.choose (ht x n)
  let S' : S × List Nat → Nat → S := fun x n => Classical.choose (Classical.choose_spec (ht x n))
  let Q' : S × List Nat → Nat → List Nat := fun x n =>
    Classical.choose (Classical.choose_spec (Classical.choose_spec (ht x n)))
  have spec := fun x n => Classical.choose_spec (Classical.choose_spec (Classical.choose_spec (ht x n)))
  let st : Nat → S × List Nat := fun n => Nat.rec (s0, []) (fun n x => (S' x n, Q' x n)) n
  have hst : ∀ n, st (n + 1) = (S' (st n) n, Q' (st n) n) := fun n => rfl
  have hspec : ∀ n, (∀ x, E' (st n) n = some x → R (st n).1 x (st (n + 1)).1) ∧ (E' (st n) n = none → (st (n + 1)).1 = (st n).1) ∧
      n ∈ (st (n + 1)).2 ∧ ∀ i, i ∈ (st n).2 → i ∈ (st (n + 1)).2 ∧ ((∃ x, E' (st n) n = some x ∧ A i x) ∨
        ((st (n + 1)).2.idxOf i ≤ (st n).2.idxOf i ∧
          (Can R A (st n).1 i → (st (n + 1)).2.idxOf i < (st n).2.idxOf i))) := fun n => spec (st n) n
  refine ⟨fun n => (st n).1, fun n => E' (st n) n, rfl, fun n e he => (hspec n).1 e he, fun n he => (hspec n).2.1 he, ?_⟩
  intro i hi n
  refine Classical.byContradiction fun hno => ?_
  have queued : ∀ m, i < m → i ∈ (st m).2 := by
    intro m hm
    induction hm with
    | refl => exact (hspec i).2.2.1
    | @step m hm ih => exact ((hspec m).2.2.2 i ih).1
  have falls : ∀ m, max n (i + 1) ≤ m → (st (m + 1)).2.idxOf i ≤ (st m).2.idxOf i ∧
      (Can R A (st m).1 i → (st (m + 1)).2.idxOf i < (st m).2.idxOf i) := by
    intro m hm
    rcases ((hspec m).2.2.2 i (queued m (by omega))).2 with ⟨x, h1, h2⟩ | h
    · exact absurd ⟨m, x, by omega, h1, h2⟩ hno
    · exact h
  -- the place in the queue cannot fall for ever
  have never : ∀ v m, max n (i + 1) ≤ m → (st m).2.idxOf i ≤ v → False := by
    intro v
    induction v with
    | zero =>
      intro m hm hv
      obtain ⟨k, hk, hc⟩ := hi m
      have : ∀ k, m ≤ k → (st k).2.idxOf i = 0 := by
        intro k hk
        induction hk with
        | refl => omega
        | @step k hk ih =>
          have hk : m ≤ k := hk
          have := (falls k (by omega)).1
          show (st (k + 1)).2.idxOf i = 0
          omega
      have h1 := this k hk
      have := (falls k (by omega)).2 hc
      omega
    | succ v ih =>
      intro m hm hv
      obtain ⟨k, hk, hc⟩ := hi m
      have : ∀ k, m ≤ k → (st k).2.idxOf i ≤ v + 1 := by
        intro k hk
        induction hk with
        | refl => omega
        | @step k hk ih =>
          have hk : m ≤ k := hk
          have := (falls k (by omega)).1
          show (st (k + 1)).2.idxOf i ≤ v + 1
          omega
      have h1 := this k hk
      have h2 := (falls k (by omega)).2 hc
      exact ih (k + 1) (by omega) (by omega)
  exact never _ _ (Nat.le_refl _) (Nat.le_refl _)

end Nargun.Scheduler
