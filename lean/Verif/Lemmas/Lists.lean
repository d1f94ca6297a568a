/-! # General lemmas about lists -/

namespace Nargun

theorem nodup_subset_length {α : Type _} [DecidableEq α] {l l' : List α} (h : l.Nodup) (hs : l ⊆ l') :
    l.length ≤ l'.length := by
  induction l generalizing l' with
  | nil => simp
  | cons a l ih =>
    have ha : a ∈ l' := hs (List.mem_cons_self ..)
    have h1 : l ⊆ l'.erase a := by
      intro x hx
      have hne : x ≠ a := by rintro rfl; exact (List.nodup_cons.mp h).1 hx
      exact (List.mem_erase_of_ne hne).mpr (hs (List.mem_cons_of_mem _ hx))
    have h2 := ih (List.nodup_cons.mp h).2 h1
    rw [List.length_erase_of_mem ha] at h2
    have := List.length_pos_of_mem ha
    simp only [List.length_cons]
    omega

theorem pairwise_of_forall_mem {α : Type _} {R : α → α → Prop} {l : List α} (h : ∀ a ∈ l, ∀ b ∈ l, R a b) :
    l.Pairwise R := by
  induction l with
  | nil => exact .nil
  | cons a l ih =>
    refine .cons (fun b hb => h a (List.mem_cons_self ..) b (List.mem_cons_of_mem _ hb)) (ih ?_)
    intro x hx y hy
    exact h x (List.mem_cons_of_mem _ hx) y (List.mem_cons_of_mem _ hy)

theorem snoc_induction {α : Type} {P : List α → Prop} (nil : P []) (snoc : ∀ l a, P l → P (l ++ [a])) (l : List α) :
    P l := by
  rw [← List.reverse_reverse l]
  induction l.reverse with
  | nil => exact nil
  | cons a l ih => rw [List.reverse_cons]; exact snoc _ _ ih

end Nargun
