import Verif.Model.Prelude

/-! # Hash maps as association lists

`std::collections::HashMap` is modelled by the list of its entries in iteration order. Rust's order is
unspecified, so theorems are stated for entries in any order and histories contain steps that permute them. -/

namespace Nargun

/-- Entries of a hash map. -/
abbrev Map (κ : Type) (α : Type) := List (κ × α)

namespace Map

variable {κ : Type} {α : Type} [DecidableEq κ]

/-- `HashMap::get`. -/
def get? (m : Map κ α) (k : κ) : Option α :=
  match m with
  | [] => none
  | (k', v) :: m => if k' = k then some v else get? m k

/-- `HashMap::contains_key`. -/
def contains (m : Map κ α) (k : κ) : Bool := (m.get? k).isSome

/-- `HashMap::remove` (the remaining map). -/
def erase (m : Map κ α) (k : κ) : Map κ α := m.filter fun e => e.1 ≠ k

/-- `HashMap::insert`: overwrites the value of a present key, otherwise adds an entry. -/
def insert (m : Map κ α) (k : κ) (v : α) : Map κ α :=
  match m with
  | [] => [(k, v)]
  | (k', v') :: m => if k' = k then (k, v) :: m else (k', v') :: insert m k v

/-- Writing through `HashMap::get_mut`: updates the value of a present key. -/
def modify (m : Map κ α) (k : κ) (f : α → α) : Map κ α :=
  m.map fun e => if e.1 = k then (e.1, f e.2) else e

/-- The keys, in iteration order. -/
def keys (m : Map κ α) : List κ := m.map (·.1)

/-- A hash map has every key once. -/
def WF (m : Map κ α) : Prop := m.keys.Nodup

/-! Laws used by all users. -/

@[simp] theorem get?_nil (k : κ) : get? ([] : Map κ α) k = none := rfl

theorem get?_cons (e : κ × α) (m : Map κ α) (k : κ) :
    get? (e :: m) k = if e.1 = k then some e.2 else get? m k := rfl

theorem get?_eq_none {m : Map κ α} {k : κ} : m.get? k = none ↔ k ∉ m.keys := by
  induction m with
  | nil => simp [keys]
  | cons e m ih =>
    rw [get?_cons]
    by_cases h : e.1 = k
    · simp [keys, h]
    · simp only [h, if_false, ih, keys, List.map_cons, List.mem_cons, not_or]
      exact ⟨fun h' => ⟨fun e => h e.symm, h'⟩, fun h' => h'.2⟩

theorem mem_of_get? {m : Map κ α} {k : κ} {v : α} (h : m.get? k = some v) : (k, v) ∈ m := by
  induction m with
  | nil => simp at h
  | cons e m ih =>
    rw [get?_cons] at h
    by_cases he : e.1 = k
    · simp only [he, if_true, Option.some.injEq] at h
      subst h; subst he; simp
    · simp only [he, if_false] at h
      exact List.mem_cons_of_mem _ (ih h)

theorem get?_of_mem {m : Map κ α} (hm : m.WF) {k : κ} {v : α} (h : (k, v) ∈ m) : m.get? k = some v := by
  induction m with
  | nil => simp at h
  | cons e m ih =>
    simp only [WF, keys, List.map_cons, List.nodup_cons] at hm
    rw [get?_cons]
    rcases List.mem_cons.mp h with rfl | h
    · simp
    · have : e.1 ≠ k := by
        rintro rfl
        exact hm.1 (List.mem_map.mpr ⟨_, h, rfl⟩)
      simp only [this, if_false]
      exact ih hm.2 h

theorem contains_iff {m : Map κ α} {k : κ} : m.contains k = true ↔ k ∈ m.keys := by
  unfold contains
  rw [Option.isSome_iff_ne_none, ne_eq, get?_eq_none]
  simp

theorem get?_insert (m : Map κ α) (k : κ) (v : α) (k' : κ) :
    (m.insert k v).get? k' = if k' = k then some v else m.get? k' := by
  induction m with
  | nil => simp [insert, get?_cons, eq_comm]
  | cons e m ih =>
    unfold insert
    by_cases h : e.1 = k
    · simp only [h, if_true, get?_cons]
      by_cases h2 : k = k'
      · simp [h2]
      · have : ¬ k' = k := fun e => h2 e.symm
        simp [h2, this]
    · simp only [h, if_false, get?_cons, ih]
      by_cases h2 : e.1 = k'
      · have : ¬ k' = k := by rintro rfl; exact h h2
        simp [h2, this]
      · simp [h2]

theorem mem_keys_insert {m : Map κ α} {k : κ} {v : α} {k' : κ} :
    k' ∈ (m.insert k v).keys ↔ k' = k ∨ k' ∈ m.keys := by
  have h1 := get?_insert m k v k'
  by_cases h : k' = k
  · subst h
    simp only [if_true] at h1
    constructor
    · intro _; exact .inl rfl
    · intro _
      exact List.mem_map.mpr ⟨_, mem_of_get? h1, rfl⟩
  · simp only [h, if_false, false_or] at h1 ⊢
    have := @get?_eq_none _ _ _ (m.insert k v) k'
    have h3 := @get?_eq_none _ _ _ m k'
    rw [h1] at this
    constructor
    · intro hk; exact Classical.byContradiction fun hn => (this.mp (h3.mpr hn)) hk
    · intro hk; exact Classical.byContradiction fun hn => (h3.mp (this.mpr hn)) hk

theorem keys_insert_of_mem {m : Map κ α} {k : κ} {v : α} (h : k ∈ m.keys) : (m.insert k v).keys = m.keys := by
  induction m with
  | nil => simp [keys] at h
  | cons e m ih =>
    unfold insert
    by_cases he : e.1 = k
    · simp [he, keys]
    · simp only [he, if_false, keys, List.map_cons, List.cons.injEq, true_and]
      apply ih
      simp only [keys, List.map_cons, List.mem_cons] at h
      exact h.resolve_left (fun e' => he e'.symm)

theorem insert_of_not_mem {m : Map κ α} {k : κ} {v : α} (h : k ∉ m.keys) : m.insert k v = m ++ [(k, v)] := by
  induction m with
  | nil => rfl
  | cons e m ih =>
    simp only [keys, List.map_cons, List.mem_cons, not_or] at h
    unfold insert
    have : ¬ e.1 = k := fun e' => h.1 e'.symm
    simp only [this, if_false, List.cons_append]
    rw [ih h.2]

theorem wf_insert {m : Map κ α} (h : m.WF) (k : κ) (v : α) : (m.insert k v).WF := by
  by_cases hk : k ∈ m.keys
  · rw [WF, keys_insert_of_mem hk]; exact h
  · rw [WF, insert_of_not_mem hk]
    simp only [keys, List.map_append, List.map_cons, List.map_nil]
    rw [List.nodup_append]
    refine ⟨h, by simp, ?_⟩
    intro a ha b hb
    simp at hb
    subst hb
    rintro rfl
    exact hk ha

theorem length_insert {m : Map κ α} (k : κ) (v : α) :
    (m.insert k v).length = if k ∈ m.keys then m.length else m.length + 1 := by
  by_cases hk : k ∈ m.keys
  · have := congrArg List.length (keys_insert_of_mem (v := v) hk)
    simp only [keys, List.length_map] at this
    simp [hk, this]
  · rw [insert_of_not_mem hk]; simp [hk]

theorem get?_erase (m : Map κ α) (k k' : κ) : (m.erase k).get? k' = if k' = k then none else m.get? k' := by
  induction m with
  | nil => simp [erase]
  | cons e m ih =>
    simp only [erase, List.filter_cons] at ih ⊢
    by_cases h : e.1 = k
    · simp only [h, ne_eq, not_true_eq_false, decide_false, Bool.false_eq_true, if_false, get?_cons]
      simp only [ne_eq] at ih
      rw [ih]
      by_cases h2 : k' = k
      · simp [h2]
      · have : ¬ k = k' := fun e => h2 e.symm
        simp [h2, this]
    · simp only [h, ne_eq, not_false_eq_true, decide_true, if_true, get?_cons]
      simp only [ne_eq] at ih
      rw [ih]
      by_cases h2 : e.1 = k'
      · have : ¬ k' = k := by rintro rfl; exact h h2
        simp [h2, this]
      · simp [h2]

theorem keys_erase (m : Map κ α) (k : κ) : (m.erase k).keys = m.keys.filter (· ≠ k) := by
  simp only [erase, keys, List.filter_map]; rfl

theorem wf_erase {m : Map κ α} (h : m.WF) (k : κ) : (m.erase k).WF := by
  rw [WF, keys_erase]; exact h.filter _

theorem length_erase_le (m : Map κ α) (k : κ) : (m.erase k).length ≤ m.length := List.length_filter_le _ _

@[simp] theorem keys_modify (m : Map κ α) (k : κ) (f : α → α) : (m.modify k f).keys = m.keys := by
  simp only [keys, modify, List.map_map]
  apply List.map_congr_left
  intro e _
  simp only [Function.comp]
  split <;> rfl

theorem wf_modify {m : Map κ α} (h : m.WF) (k : κ) (f : α → α) : (m.modify k f).WF := by
  rw [WF, keys_modify]; exact h

theorem get?_modify (m : Map κ α) (k k' : κ) (f : α → α) :
    (m.modify k f).get? k' = if k' = k then (m.get? k').map f else m.get? k' := by
  induction m with
  | nil => simp [modify]
  | cons e m ih =>
    simp only [modify, List.map_cons, get?_cons] at ih ⊢
    rw [ih]
    by_cases h : e.1 = k
    · by_cases h2 : k' = k
      · simp [h, h2]
      · have : ¬ k = k' := fun e => h2 e.symm
        simp [h, h2, this]
    · by_cases h2 : e.1 = k'
      · have : ¬ k' = k := by rintro rfl; exact h h2
        simp [h, h2, this]
      · simp [h, h2]

theorem wf_perm {m m' : Map κ α} (h : m.WF) (hp : m.Perm m') : m'.WF := (hp.map _).nodup_iff.mp h

theorem get?_perm {m m' : Map κ α} (h : m.WF) (hp : m.Perm m') (k : κ) : m.get? k = m'.get? k := by
  cases hk : m.get? k with
  | none =>
    have := get?_eq_none.mp hk
    symm; rw [get?_eq_none]
    intro h'; exact this ((hp.map _).mem_iff.mpr h')
  | some v =>
    symm
    exact get?_of_mem (wf_perm h hp) (hp.mem_iff.mp (mem_of_get? hk))

end Map

end Nargun
