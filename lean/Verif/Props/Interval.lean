import Verif.Spec.Interval

/-! # C84 -/

namespace Nargun

open Spec Interval

theorem run_count {s s' : Interval} {h : List Tick} (hr : Run s h s') :
    s'.growth = s.growth ∧ s'.max = s.max ∧ s'.iterCount = s.iterCount + completed h := by
  induction hr with
  | nil => simp [completed]
  | snoc _ hs ih =>
    obtain ⟨h1, h2, h3⟩ := ih
    cases hs with
    | slept => refine ⟨h1, h2, ?_⟩; simp [completed, h3, List.countP_append]; omega
    | dropped => refine ⟨h1, h2, ?_⟩; simp [completed, h3, List.countP_append]

theorem delay_fin {s : Interval} {g m : Rat} (hg : s.growth s.iterCount = .fin g) (hm : s.max = .fin m) :
    s.delay = F64.toDuration (.fin (if m < g then m else g)) := by
  simp only [delay, hg, hm, F64.minOf, F64.partialCmp, Res.unwrap, Res.ok_bind]
  by_cases h1 : g < m
  · have : ¬ m < g := Rat.not_lt.mpr (Rat.le_of_lt h1)
    simp [h1, this]
  · by_cases h2 : g = m
    · subst h2; simp
    · have : m < g := by
        rcases Rat.le_iff_lt_or_eq.mp (Rat.not_lt.mp h1) with h | h
        · exact h
        · exact absurd h.symm h2
      simp [h1, h2, this]

/-- C84: after any history of completed and given up calls, the next pause is the smaller one of the cap and the formula
applied to the number of completed calls, provided that is a length of time at all; otherwise the call panics. -/
theorem C84_delay (growth : Nat → F64) (max : F64) (h : List Tick) (s : Interval) (hr : Run (.new max growth) h s)
    (g m : Rat) (hg : growth (completed h) = .fin g) (hm : max = .fin m) :
    (∀ d, s.delay = .ok d ↔ IsMin d g m ∧ 0 ≤ d ∧ d < 2 ^ 64) ∧
    (s.delay = .panic ↔ ∀ d, IsMin d g m → ¬ (0 ≤ d ∧ d < 2 ^ 64)) := by
  obtain ⟨h1, h2, h3⟩ := run_count hr
  simp only [new, Nat.zero_add] at h1 h2 h3
  have hd := delay_fin (s := s) (g := g) (m := m) (by rw [h1, h3, hg]) (by rw [h2, hm])
  have key : ∀ d, IsMin d g m ↔ d = if m < g then m else g := by
    intro d
    constructor
    · rintro ⟨h | h, ha, hb⟩
      · subst h
        have : ¬ m < d := Rat.not_lt.mpr hb
        simp [this]
      · subst h
        split
        · rfl
        · rename_i hn
          exact Rat.le_antisymm ha (Rat.not_lt.mp hn)
    · rintro rfl
      split
      · rename_i hlt
        exact ⟨.inr rfl, Rat.le_of_lt hlt, Rat.le_refl⟩
      · rename_i hn
        exact ⟨.inl rfl, Rat.le_refl, Rat.not_lt.mp hn⟩
  simp only [hd, key, F64.toDuration]
  generalize (if m < g then m else g) = x
  constructor
  · intro d
    by_cases hx : 0 ≤ x ∧ x < 2 ^ 64
    · simp only [hx, and_self, if_true, Res.ok.injEq]
      constructor
      · rintro rfl; exact ⟨rfl, hx⟩
      · rintro ⟨rfl, _⟩; rfl
    · simp only [hx, if_false]
      constructor
      · intro h; cases h
      · rintro ⟨rfl, h⟩; exact absurd h hx
  · by_cases hx : 0 ≤ x ∧ x < 2 ^ 64
    · simp only [hx, and_self, if_true]
      constructor
      · intro h; cases h
      · intro h; exact absurd hx (h x rfl)
    · simp only [hx, if_false]
      exact ⟨fun _ d h => by subst h; exact hx, fun _ => trivial⟩

/-- C84: a formula that is not a number, or a cap that is not one, ends the task. -/
theorem C84_nan (s : Interval) (h : s.growth s.iterCount = .nan ∨ s.max = .nan) : s.delay = .panic := by
  rcases h with h | h
  · simp [delay, F64.minOf, h, F64.partialCmp, Res.unwrap]
  · simp only [delay, F64.minOf, h]
    cases s.growth s.iterCount <;> simp [F64.partialCmp, Res.unwrap]

/-- C84: if the formula is infinite the pause is the cap, if the cap is infinite the pause is the formula; if nothing
finite remains, or something is below every number, the task ends. -/
theorem C84_infinite (s : Interval) :
    (∀ m, s.growth s.iterCount = .posInf → s.max = .fin m → 0 ≤ m → m < 2 ^ 64 → s.delay = .ok m) ∧
    (∀ g, s.growth s.iterCount = .fin g → s.max = .posInf → 0 ≤ g → g < 2 ^ 64 → s.delay = .ok g) ∧
    (s.growth s.iterCount = .posInf → s.max = .posInf → s.delay = .panic) ∧
    (s.growth s.iterCount = .negInf ∨ s.max = .negInf → s.delay = .panic) := by
  refine ⟨?_, ?_, ?_, ?_⟩
  · intro m h1 h2 h3 h4
    simp [delay, F64.minOf, h1, h2, F64.partialCmp, Res.unwrap, F64.toDuration, h3, h4]
  · intro g h1 h2 h3 h4
    simp [delay, F64.minOf, h1, h2, F64.partialCmp, Res.unwrap, F64.toDuration, h3, h4]
  · intro h1 h2
    simp [delay, F64.minOf, h1, h2, F64.partialCmp, Res.unwrap, F64.toDuration]
  · rintro (h | h)
    · simp only [delay, F64.minOf, h]
      cases s.max <;> simp [F64.partialCmp, Res.unwrap, F64.toDuration]
    · simp only [delay, F64.minOf, h]
      cases s.growth s.iterCount <;> simp [F64.partialCmp, Res.unwrap, F64.toDuration]

/-- `C84_infinite`: a formula that is infinite from the third pause on. -/
example : (Interval.delay ⟨fun n => if n < 2 then .fin n else .posInf, 2, .fin 10⟩) = .ok 10 :=
  (C84_infinite _).1 10 rfl rfl (by decide) (by decide)

/-- C84: for a formula that never decreases, no pause is shorter than an earlier one or longer than the cap. -/
theorem C84_monotone (f : Nat → Rat) (m : Rat) (hf : ∀ i j, i ≤ j → f i ≤ f j) (h : List Tick) (s : Interval)
    (hr : Run (.new (.fin m) fun n => .fin (f n)) h s) :
    (h.map pauseOf).Pairwise (· ≤ ·) ∧ ∀ e ∈ h, pauseOf e ≤ m ∧ 0 ≤ pauseOf e := by
  generalize hs0 : Interval.new (.fin m) (fun n => F64.fin (f n)) = s0 at hr
  suffices hh : (h.map pauseOf).Pairwise (· ≤ ·) ∧
      ∀ e ∈ h, pauseOf e ≤ m ∧ 0 ≤ pauseOf e ∧ pauseOf e ≤ f (completed h) from
    ⟨hh.1, fun e he => ⟨(hh.2 e he).1, (hh.2 e he).2.1⟩⟩
  induction hr with
  | nil => simp
  | @snoc s1 s2 h e hr hs ih =>
    subst hs0
    obtain ⟨i1, i2⟩ := ih
    have hmin : IsMin (pauseOf e) (f (completed h)) m ∧ 0 ≤ pauseOf e := by
      have hd : s1.delay = .ok (pauseOf e) := by cases hs <;> assumption
      have := ((C84_delay _ _ h s1 hr _ _ rfl rfl).1 _).mp hd
      exact ⟨this.1, this.2.1⟩
    have hle : f (completed h) ≤ f (completed (h ++ [e])) := by
      apply hf
      simp only [completed, List.countP_append]
      omega
    constructor
    · rw [List.map_append, List.pairwise_append]
      refine ⟨i1, by simp, ?_⟩
      intro a ha b hb
      simp only [List.map_cons, List.map_nil, List.mem_singleton] at hb
      subst hb
      obtain ⟨e', he', rfl⟩ := List.mem_map.mp ha
      obtain ⟨j1, _, j3⟩ := i2 e' he'
      rcases hmin.1.1 with hx | hx <;> rw [hx] <;> assumption
    · intro e' he'
      rcases List.mem_append.mp he' with he' | he'
      · obtain ⟨j1, j2, j3⟩ := i2 e' he'
        exact ⟨j1, j2, Rat.le_trans j3 hle⟩
      · simp only [List.mem_singleton] at he'
        subst he'
        exact ⟨hmin.1.2.2, hmin.2, Rat.le_trans hmin.1.2.1 hle⟩

theorem cube_mono (i j : Nat) (h : i ≤ j) : (i : Rat) ^ 3 ≤ (j : Rat) ^ 3 := by
  have : ((i ^ 3 : Nat) : Rat) ≤ ((j ^ 3 : Nat) : Rat) := Rat.natCast_le_natCast.mpr (Nat.pow_le_pow_left h 3)
  simpa [Rat.natCast_pow] using this

/-- C84: the pauses between refreshes of the routing table are between 3 and 200 seconds, they never decrease, and from
the eighteenth refresh on they are 200 seconds. -/
theorem C84_refresh (h : List Tick) (s : Interval) (hr : Run (.new REFRESH_MAX REFRESH_GROWTH) h s) :
    (∃ d, s.delay = .ok d ∧ 3 ≤ d ∧ d ≤ 200 ∧ (18 ≤ completed h → d = 200)) ∧
    (h.map pauseOf).Pairwise (· ≤ ·) := by
  have h3 : (0 : Rat) ≤ (completed h : Rat) ^ 3 := Rat.pow_nonneg Rat.natCast_nonneg
  have h18 : 18 ≤ completed h → (18 : Rat) ^ 3 ≤ (completed h : Rat) ^ 3 := fun hc => cube_mono 18 _ hc
  refine ⟨?_, ?_⟩
  · have hd := C84_delay REFRESH_GROWTH REFRESH_MAX h s hr (3 + (4 / 100) * (completed h : Rat) ^ 3) 200 rfl rfl
    generalize (completed h : Rat) ^ 3 = x at hd h3 h18
    by_cases hx : 3 + (4 / 100) * x ≤ 200
    · refine ⟨_, (hd.1 _).mpr ⟨⟨.inl rfl, Rat.le_refl, hx⟩, by grind, by grind⟩, by grind, hx, ?_⟩
      intro hc
      have := h18 hc
      grind
    · exact ⟨200, (hd.1 _).mpr ⟨⟨.inr rfl, by grind, by grind⟩, by grind, by grind⟩, by grind, by grind, fun _ => rfl⟩
  · refine (C84_monotone (fun n => 3 + (4 / 100) * (n : Rat) ^ 3) 200 ?_ h s hr).1
    intro i j hij
    have := cube_mono i j hij
    grind

/-- C84: likewise between lookups of peers: between 7 and 120 seconds. -/
theorem C84_fetch (pow37 : Nat → Rat) (h0 : ∀ n, 0 ≤ pow37 n) (hm : ∀ i j, i ≤ j → pow37 i ≤ pow37 j)
    (h : List Tick) (s : Interval) (hr : Run (.new FETCH_MAX (FETCH_GROWTH pow37)) h s) :
    (∃ d, s.delay = .ok d ∧ 7 ≤ d ∧ d ≤ 120) ∧ (h.map pauseOf).Pairwise (· ≤ ·) := by
  have hx0 := h0 (completed h)
  refine ⟨?_, ?_⟩
  · have hd := C84_delay (FETCH_GROWTH pow37) FETCH_MAX h s hr (7 + (1 / 100) * pow37 (completed h)) 120 rfl rfl
    generalize pow37 (completed h) = x at hd hx0
    by_cases hx : 7 + (1 / 100) * x ≤ 120
    · exact ⟨_, (hd.1 _).mpr ⟨⟨.inl rfl, Rat.le_refl, hx⟩, by grind, by grind⟩, by grind, hx⟩
    · exact ⟨120, (hd.1 _).mpr ⟨⟨.inr rfl, by grind, by grind⟩, by grind, by grind⟩, by grind, by grind⟩
  · refine (C84_monotone (fun n => 7 + (1 / 100) * pow37 n) 120 ?_ h s hr).1
    intro i j hij
    have := hm i j hij
    grind

/-- A history: one refresh after 3 seconds, one that was given up, one after 3.04 seconds. -/
example : ∃ s, Run (.new REFRESH_MAX REFRESH_GROWTH) [.slept 3, .dropped (76 / 25), .slept (76 / 25)] s ∧
    s.delay = .ok (83 / 25) := by
  refine ⟨⟨REFRESH_GROWTH, 2, REFRESH_MAX⟩,
    .snoc (h := [.slept 3, .dropped (76 / 25)]) (.snoc (h := [.slept 3]) (.snoc (h := []) .nil (.slept ?_))
      (.dropped ?_)) (.slept ?_), ?_⟩ <;> decide +kernel

/-- A formula that goes below zero ends the task. -/
example : (Interval.new (.fin 5) fun n => .fin (-n - 1)).delay = .panic := by decide +kernel

end Nargun
