import Verif.Spec.TorrentManager
import Verif.Props.Bitmap
import Verif.Props.Peers

set_option linter.unusedSectionVars false
set_option linter.unusedSimpArgs false

namespace Nargun
open Spec

/-! ## Bitmaps -/

namespace Bitmap

theorem new_full {n : Nat} (hn : 0 < n) : ∃ b, Bitmap.new n = .ok b ∧ b.len = n ∧ b.WF ∧
    (∀ i, bitAt b.data i = false) ∧ b.weight = 0 := by
  obtain ⟨b, h1, h2, h3, h4⟩ := (C01_bitmap_new n).1 hn
  have hb : ∀ i, bitAt b.data i = false := by
    have he : b = ⟨List.replicate (1 + (n - 1) / 8) 0, n⟩ := by
      have hz : usub n 1 = .ok (n - 1) := by simp [usub]; omega
      simp [Bitmap.new, unsignedCeilDiv, hz] at h1
      exact h1.symm
    intro i
    rw [he]
    simp only [bitAt]
    have : (List.replicate (1 + (n - 1) / 8) (0 : Byte)).getD (i / 8) 0 = 0 := by
      simp only [List.getD, List.getElem?_replicate]
      split <;> rfl
    rw [this]
    simp
  refine ⟨b, h1, h2, h3, hb, ?_⟩
  rw [weight, sum_countOnes, countBelow_false]
  intro i _; exact hb i

theorem toBools_eq {b : Bitmap} (hb : b.WF) : b.toBools = .ok ((List.range b.len).map (bitAt b.data)) := by
  have h := Bitmap.Iter.yields_from b hb.2 b.len 0 0 (by omega) (by simp)
  simp only [Nat.zero_add] at h
  exact h.2

theorem weight_eq (b : Bitmap) : b.weight = countBelow (bitAt b.data) (8 * b.data.length) := by
  rw [weight, sum_countOnes]

theorem countBelow_set {p q : Nat → Bool} {n i : Nat} (hi : i < n) (hp : p i = false)
    (hq : ∀ j, q j = if j = i then true else p j) : countBelow q n = countBelow p n + 1 := by
  induction n with
  | zero => omega
  | succ n ih =>
    simp only [countBelow]
    by_cases h : i = n
    · subst h
      have : countBelow q i = countBelow p i := by
        apply countBelow_congr
        intro j hj
        rw [hq, if_neg (by omega)]
      rw [this, hq, if_pos rfl, hp]; simp
    · have hn : q n = p n := by rw [hq, if_neg (by omega)]
      rw [ih (by omega), hn]; omega

theorem change_set {b : Bitmap} (hb : b.WF) {i : Nat} (hi : i < 8 * b.data.length) :
    ∃ b', b.change i true = .ok (b', bitAt b.data i) ∧ b'.len = b.len ∧ b'.WF ∧
      (∀ j, bitAt b'.data j = if j = i then true else bitAt b.data j) ∧
      b'.weight = if bitAt b.data i then b.weight else b.weight + 1 := by
  obtain ⟨b', h1, h2, h3, h4⟩ := b.change_of_lt i true (by omega)
  refine ⟨b', h1, h2, ⟨by rw [h2]; exact hb.1, by rw [h3, h2]; exact hb.2⟩, h4, ?_⟩
  rw [weight_eq, weight_eq, h3]
  by_cases ho : bitAt b.data i
  · rw [if_pos ho]
    apply countBelow_congr
    intro j _
    rw [h4]
    by_cases hj : j = i
    · rw [if_pos hj, hj, ho]
    · rw [if_neg hj]
  · rw [if_neg ho]
    exact countBelow_set hi (by simpa using ho) h4

theorem weight_zero_iff (b : Bitmap) : b.weight = 0 ↔ ∀ j < 8 * b.data.length, bitAt b.data j = false := by
  rw [weight_eq]
  constructor
  · generalize 8 * b.data.length = n
    intro h
    induction n with
    | zero => intro j hj; omega
    | succ n ih =>
      simp only [countBelow] at h
      intro j hj
      by_cases hjn : j = n
      · subst hjn
        by_cases hb : bitAt b.data j
        · simp [hb] at h
        · simpa using hb
      · exact ih (by omega) j (by omega)
  · exact countBelow_false

theorem bitAt_ge {d : Bytes} {j : Nat} (h : 8 * d.length ≤ j) : bitAt d j = false := by
  simp only [bitAt, List.getD]
  rw [List.getElem?_eq_none (by omega)]
  simp

end Bitmap

namespace TM

/-! ## Selection -/

theorem findPeer_some {idx w : Nat} {m : Map Peer PeerInfo} {peer : Peer} (h : findPeer idx w m = .ok (some peer)) :
    ∃ info, (peer, info) ∈ m ∧ info.choking = false ∧ info.haves.get idx = .ok true ∧ info.working.weight = w := by
  induction m with
  | nil => simp [findPeer] at h
  | cons e m ih =>
    obtain ⟨q, info⟩ := e
    simp only [findPeer] at h
    by_cases hc : info.choking
    · simp only [hc, if_true] at h
      obtain ⟨i, h1, h2⟩ := ih h
      exact ⟨i, List.mem_cons_of_mem _ h1, h2⟩
    · simp only [hc, Bool.false_eq_true, if_false] at h
      obtain ⟨g, hg, h⟩ := Res.bind_eq_ok.mp h
      by_cases hw : g = true ∧ info.working.weight = w
      · rw [if_pos hw] at h
        cases h
        exact ⟨info, by simp, by simpa using hc, by rw [hg, hw.1], hw.2⟩
      · rw [if_neg hw] at h
        obtain ⟨i, h1, h2⟩ := ih h
        exact ⟨i, List.mem_cons_of_mem _ h1, h2⟩

theorem findPeer_none {idx w : Nat} {m : Map Peer PeerInfo} (h : findPeer idx w m = .ok none)
    {peer : Peer} {info : PeerInfo} (hm : (peer, info) ∈ m) (hc : info.choking = false)
    (hh : info.haves.get idx = .ok true) : info.working.weight ≠ w := by
  induction m with
  | nil => simp at hm
  | cons e m ih =>
    obtain ⟨q, i⟩ := e
    simp only [findPeer] at h
    by_cases hci : i.choking
    · simp only [hci, if_true] at h
      rcases List.mem_cons.mp hm with he | he
      · cases he; rw [hc] at hci; cases hci
      · exact ih h he
    · simp only [hci, Bool.false_eq_true, if_false] at h
      obtain ⟨g, hg, h⟩ := Res.bind_eq_ok.mp h
      by_cases hw : g = true ∧ i.working.weight = w
      · rw [if_pos hw] at h; cases h
      · rw [if_neg hw] at h
        rcases List.mem_cons.mp hm with he | he
        · cases he
          rw [hh] at hg
          cases hg
          exact fun e => hw ⟨rfl, e⟩
        · exact ih h he

theorem findPeer_ok {idx w : Nat} {m : Map Peer PeerInfo} (h : ∀ e ∈ m, idx / 8 < e.2.haves.data.length) :
    ∃ r, findPeer idx w m = .ok r := by
  induction m with
  | nil => exact ⟨_, rfl⟩
  | cons e m ih =>
    obtain ⟨q, i⟩ := e
    have ih' := ih (fun e he => h e (List.mem_cons_of_mem _ he))
    simp only [findPeer]
    by_cases hci : i.choking
    · simp only [hci, if_true]; exact ih'
    · simp only [hci, Bool.false_eq_true, if_false]
      rw [Bitmap.get_of_lt _ _ (h (q, i) (by simp)), Res.ok_bind]
      split
      · exact ⟨_, rfl⟩
      · exact ih'

theorem findAssigned_some {s : TM} {k : Nat} {it : List (Nat × Nat × Nat)} {idx : Nat}
    (h : findAssigned s k it = .ok (some idx)) : (∃ x ∈ it, x.1 = idx) ∧ index s.assignedPeerCount idx = .ok k := by
  induction it with
  | nil => simp [findAssigned] at h
  | cons x it ih =>
    simp only [findAssigned] at h
    obtain ⟨c, hc, h⟩ := Res.bind_eq_ok.mp h
    split at h
    · next e =>
      cases h
      exact ⟨⟨x, by simp, rfl⟩, by rw [hc, e]⟩
    · obtain ⟨⟨y, h1, h2⟩, h3⟩ := ih h
      exact ⟨⟨y, List.mem_cons_of_mem _ h1, h2⟩, h3⟩

theorem findAssigned_ok {s : TM} {k : Nat} {it : List (Nat × Nat × Nat)} (h : ∀ x ∈ it, x.1 < s.assignedPeerCount.length) :
    ∃ r, findAssigned s k it = .ok r := by
  induction it with
  | nil => exact ⟨_, rfl⟩
  | cons x it ih =>
    simp only [findAssigned]
    rw [index_lt (h x (by simp)), Res.ok_bind]
    split
    · exact ⟨_, rfl⟩
    · exact ih (fun y hy => h y (List.mem_cons_of_mem _ hy))

theorem selectLoop_some {s : TM} {it : List (Nat × Nat × Nat)} {fuel k : Nat} {peer : Peer} {idx : Nat}
    (h : selectLoop s it fuel k = .ok (some (peer, idx))) :
    ∃ j, k ≤ j ∧ j < k + fuel ∧ findAssigned s (j / 4) it = .ok (some idx) ∧
      findPeer idx (j % 4) s.activePeers = .ok (some peer) ∧
      ∀ j', k ≤ j' → j' < j → ∀ idx', findAssigned s (j' / 4) it = .ok (some idx') →
        findPeer idx' (j' % 4) s.activePeers = .ok none := by
  induction fuel generalizing k with
  | zero => simp [selectLoop] at h
  | succ fuel ih =>
    simp only [selectLoop] at h
    obtain ⟨x, hx, h⟩ := Res.bind_eq_ok.mp h
    cases x with
    | none =>
      obtain ⟨j, h1, h2, h3, h4, h5⟩ := ih h
      refine ⟨j, by omega, by omega, h3, h4, ?_⟩
      intro j' hj hj2 idx' hi
      by_cases he : j' = k
      · subst he; rw [hx] at hi; cases hi
      · exact h5 j' (by omega) hj2 idx' hi
    | some i =>
      simp only at h
      obtain ⟨r, hr, h⟩ := Res.bind_eq_ok.mp h
      cases r with
      | some q =>
        cases h
        exact ⟨k, by omega, by omega, hx, hr, fun j' h1 h2 => by omega⟩
      | none =>
        obtain ⟨j, h1, h2, h3, h4, h5⟩ := ih h
        refine ⟨j, by omega, by omega, h3, h4, ?_⟩
        intro j' hj hj2 idx' hi
        by_cases he : j' = k
        · subst he; rw [hx] at hi; cases hi; exact hr
        · exact h5 j' (by omega) hj2 idx' hi

theorem selectLoop_none {s : TM} {it : List (Nat × Nat × Nat)} {fuel k : Nat}
    (h : selectLoop s it fuel k = .ok none) :
      ∀ j', k ≤ j' → j' < k + fuel → ∀ idx', findAssigned s (j' / 4) it = .ok (some idx') →
        findPeer idx' (j' % 4) s.activePeers = .ok none := by
  induction fuel generalizing k with
  | zero => intro j' h1 h2; omega
  | succ fuel ih =>
    simp only [selectLoop] at h
    obtain ⟨x, hx, h⟩ := Res.bind_eq_ok.mp h
    intro j' hj hj2 idx' hi
    by_cases he : j' = k
    · subst he
      rw [hx] at hi
      cases hi
      simp only at h
      obtain ⟨r, hr, h⟩ := Res.bind_eq_ok.mp h
      cases r with
      | some q => cases h
      | none => exact hr
    · cases x with
      | none => exact ih h j' (by omega) (by omega) idx' hi
      | some i =>
        simp only at h
        obtain ⟨r, hr, h⟩ := Res.bind_eq_ok.mp h
        cases r with
        | some q => cases h
        | none => exact ih h j' (by omega) (by omega) idx' hi

theorem selectLoop_ok {s : TM} {it : List (Nat × Nat × Nat)} (h1 : ∀ x ∈ it, x.1 < s.assignedPeerCount.length)
    (h2 : ∀ x ∈ it, ∀ e ∈ s.activePeers, x.1 / 8 < e.2.haves.data.length) (fuel k : Nat) :
    ∃ r, selectLoop s it fuel k = .ok r := by
  induction fuel generalizing k with
  | zero => exact ⟨_, rfl⟩
  | succ fuel ih =>
    simp only [selectLoop]
    obtain ⟨x, hx⟩ := findAssigned_ok (k := k / 4) h1
    rw [hx, Res.ok_bind]
    cases x with
    | none => exact ih _
    | some i =>
      obtain ⟨⟨y, hy, he⟩, _⟩ := findAssigned_some hx
      obtain ⟨r, hr⟩ := findPeer_ok (idx := i) (w := k % 4) (m := s.activePeers) (by rw [← he]; exact h2 y hy)
      simp only [hr, Res.ok_bind]
      cases r with
      | none => exact ih _
      | some q => exact ⟨_, rfl⟩

/-- Positions kept by the filter of `remaining`. -/
theorem mem_remaining {s : TM} {bits : List Bool} {x : Nat × Nat × Nat} (h : x ∈ s.remaining bits) :
    bits[x.1]? = some false ∧ s.frequencyMap[x.1]? = some x.2.1 ∧ 0 < x.2.1 ∧ s.assignedPeerCount[x.1]? = some x.2.2 := by
  simp only [remaining, List.mem_map, List.mem_filter, Bool.and_eq_true, Bool.not_eq_true', decide_eq_true_eq] at h
  obtain ⟨y, ⟨hy, hy1, hy2⟩, rfl⟩ := h
  obtain ⟨j, hj⟩ := List.mem_iff_getElem?.mp hy
  rw [List.getElem?_zip_eq_some] at hj
  obtain ⟨hj, ha⟩ := hj
  rw [List.getElem?_zip_eq_some] at hj
  obtain ⟨hj, hf⟩ := hj
  rw [List.getElem?_zipIdx] at hj
  simp only [Option.map_eq_some_iff, Nat.zero_add] at hj
  obtain ⟨b, hb, he⟩ := hj
  rw [← he] at hy1 ⊢
  simp only at hy1 ⊢
  subst hy1
  exact ⟨hb, hf, hy2, ha⟩

end TM

/-! ## Counting map entries -/

namespace Map

variable {κ α : Type} [DecidableEq κ]

/-- Number of entries whose value satisfies `f`. -/
def count (f : α → Bool) (m : Map κ α) : Nat := m.countP (fun e => f e.2)

theorem count_cons (f : α → Bool) (e : κ × α) (m : Map κ α) :
    count f (e :: m) = count f m + (f e.2).toNat := by
  simp only [count, List.countP_cons]
  cases f e.2 <;> simp

theorem count_insert_none {f : α → Bool} {m : Map κ α} {k : κ} {v : α} (h : m.get? k = none) :
    count f (m.insert k v) = count f m + (f v).toNat := by
  rw [insert_of_not_mem (get?_eq_none.mp h)]
  simp only [count, List.countP_append, List.countP_cons, List.countP_nil]
  cases f v <;> simp

theorem count_insert_some {f : α → Bool} {m : Map κ α} {k : κ} {v o : α} (h : m.get? k = some o) :
    count f (m.insert k v) + (f o).toNat = count f m + (f v).toNat := by
  induction m with
  | nil => simp at h
  | cons e m ih =>
    obtain ⟨k', v'⟩ := e
    rw [get?_cons] at h
    unfold insert
    by_cases he : k' = k
    · simp only [he, if_true, Option.some.injEq] at h ⊢
      subst h
      simp only [count_cons]; omega
    · simp only [he, if_false] at h ⊢
      have := ih h
      simp only [count_cons]; omega

theorem modify_of_not_mem {m : Map κ α} {k : κ} {g : α → α} (h : m.get? k = none) : m.modify k g = m := by
  induction m with
  | nil => rfl
  | cons e m ih =>
    rw [get?_cons] at h
    by_cases he : e.1 = k
    · simp [he] at h
    · simp only [he, if_false] at h
      simp only [modify, List.map_cons, he, if_false]
      rw [show List.map _ m = modify m k g from rfl, ih h]

theorem get?_none_of_wf_cons {e : κ × α} {m : Map κ α} (h : Map.WF (e :: m)) : get? m e.1 = none := by
  simp only [WF, keys, List.map_cons, List.nodup_cons] at h
  exact get?_eq_none.mpr h.1

theorem wf_tail {e : κ × α} {m : Map κ α} (h : Map.WF (e :: m)) : Map.WF m := by
  simp only [WF, keys, List.map_cons, List.nodup_cons] at h
  exact h.2

theorem count_modify {f : α → Bool} {m : Map κ α} (hm : m.WF) {k : κ} {g : α → α} {o : α} (h : m.get? k = some o) :
    count f (m.modify k g) + (f o).toNat = count f m + (f (g o)).toNat := by
  induction m with
  | nil => simp at h
  | cons e m ih =>
    obtain ⟨k', v'⟩ := e
    rw [get?_cons] at h
    have hn := get?_none_of_wf_cons hm
    simp only [modify, List.map_cons]
    by_cases he : k' = k
    · subst he
      simp only [if_true, Option.some.injEq] at h hn ⊢
      subst h
      rw [show List.map _ m = modify m k' g from rfl, modify_of_not_mem hn]
      simp only [count_cons]; omega
    · simp only [he, if_false] at h ⊢
      have := ih (wf_tail hm) h
      rw [show List.map _ m = modify m k g from rfl]
      simp only [count_cons]; omega

theorem erase_of_not_mem {m : Map κ α} {k : κ} (h : m.get? k = none) : m.erase k = m := by
  have := get?_eq_none.mp h
  simp only [erase, List.filter_eq_self, decide_eq_true_eq, ne_eq]
  intro e he hk
  exact this (List.mem_map.mpr ⟨e, he, hk⟩)

theorem count_erase {f : α → Bool} {m : Map κ α} (hm : m.WF) {k : κ} {o : α} (h : m.get? k = some o) :
    count f (m.erase k) + (f o).toNat = count f m := by
  induction m with
  | nil => simp at h
  | cons e m ih =>
    obtain ⟨k', v'⟩ := e
    rw [get?_cons] at h
    have hn := get?_none_of_wf_cons hm
    by_cases he : k' = k
    · subst he
      simp only [if_true, Option.some.injEq] at h hn ⊢
      subst h
      rw [show erase ((k', v') :: m) k' = erase m k' by simp [erase], erase_of_not_mem hn]
      simp only [count_cons]
    · simp only [he, if_false] at h ⊢
      have := ih (wf_tail hm) h
      rw [show erase ((k', v') :: m) k = (k', v') :: erase m k by simp [erase, he]]
      simp only [count_cons]; omega

theorem count_le_length (f : α → Bool) (m : Map κ α) : count f m ≤ m.length := List.countP_le_length

theorem mem_modify {m : Map κ α} {k : κ} {g : α → α} {e : κ × α} (h : e ∈ m.modify k g) :
    e ∈ m ∨ ∃ v, (k, v) ∈ m ∧ e = (k, g v) := by
  simp only [modify, List.mem_map] at h
  obtain ⟨a, ha, he⟩ := h
  by_cases hk : a.1 = k
  · rw [if_pos hk] at he
    exact .inr ⟨a.2, by rw [← hk]; exact ha, by rw [← he, hk]⟩
  · rw [if_neg hk] at he
    exact .inl (he ▸ ha)

theorem mem_insert {m : Map κ α} {k : κ} {v : α} {e : κ × α} (h : e ∈ m.insert k v) : e ∈ m ∨ e = (k, v) := by
  induction m with
  | nil => simp [insert] at h; exact .inr h
  | cons a m ih =>
    unfold insert at h
    split at h
    · rcases List.mem_cons.mp h with rfl | h
      · exact .inr rfl
      · exact .inl (List.mem_cons_of_mem _ h)
    · rcases List.mem_cons.mp h with rfl | h
      · exact .inl (by simp)
      · rcases ih h with h | h
        · exact .inl (List.mem_cons_of_mem _ h)
        · exact .inr h

end Map

/-! ## Counters -/

theorem u16Add_one {p : Profile} {a r : Nat} (hs : p = .debug ∨ a < 65535) (h : u16Add p a 1 = .ok r) : r = a + 1 := by
  simp only [u16Add] at h
  split at h
  · cases h; rfl
  · rcases hs with rfl | hs
    · cases h
    · omega

theorem u16Add_one_ok {p : Profile} {a : Nat} (hs : a < 65535) : u16Add p a 1 = .ok (a + 1) := by
  simp only [u16Add]; rw [if_pos (by omega)]

theorem u16Sub_one {p : Profile} {a : Nat} (h : 1 ≤ a) : u16Sub p a 1 = .ok (a - 1) := by
  simp only [u16Sub]; rw [if_pos h]

namespace TM

theorem addBits_spec {p : Profile} {fs fs' : List Nat} {bs : List Bool} (hs : p = .debug ∨ ∀ i, fs.getD i 0 < 65535)
    (h : addBits p fs bs = .ok fs') :
    fs'.length = fs.length ∧ ∀ i, fs'.getD i 0 = fs.getD i 0 + (bs.getD i false).toNat := by
  induction fs generalizing bs fs' with
  | nil =>
    induction bs with
    | nil => simp [addBits] at h; subst h; simp
    | cons b bs ih =>
      cases b with
      | true => simp [addBits] at h
      | false =>
        simp only [addBits] at h
        obtain ⟨h1, h2⟩ := ih h
        refine ⟨h1, ?_⟩
        have he : fs' = [] := List.length_eq_zero_iff.mp (by simpa using h1)
        subst he
        intro i
        cases i with
        | zero => simp
        | succ i => simpa using h2 i
  | cons f fs ih =>
    cases bs with
    | nil => simp [addBits] at h; subst h; simp
    | cons b bs =>
      simp only [addBits] at h
      obtain ⟨f', hf, h⟩ := Res.bind_eq_ok.mp h
      obtain ⟨r, hr, h⟩ := Res.bind_eq_ok.mp h
      cases h
      have hs' : p = .debug ∨ ∀ i, fs.getD i 0 < 65535 := hs.imp id (fun h i => by simpa using h (i + 1))
      obtain ⟨h1, h2⟩ := ih hs' hr
      refine ⟨by simp [h1], ?_⟩
      intro i
      cases i with
      | zero =>
        cases b with
        | true =>
          have := u16Add_one (hs.imp id (fun h => by simpa using h 0)) (by simpa using hf)
          simp [this]
        | false => simp at hf; simp [hf]
      | succ i => simpa using h2 i

theorem addBits_ok {p : Profile} {fs : List Nat} {bs : List Bool} (hs : ∀ i, fs.getD i 0 < 65535)
    (hl : bs.length ≤ fs.length) : ∃ fs', addBits p fs bs = .ok fs' := by
  induction fs generalizing bs with
  | nil =>
    have : bs = [] := List.length_eq_zero_iff.mp (by simpa using hl)
    subst this; exact ⟨_, rfl⟩
  | cons f fs ih =>
    cases bs with
    | nil => exact ⟨_, rfl⟩
    | cons b bs =>
      obtain ⟨r, hr⟩ := ih (bs := bs) (fun i => by simpa using hs (i + 1)) (by simpa using hl)
      have h0 : f < 65535 := by simpa using hs 0
      simp only [addBits]
      cases b
      · simp [hr]
      · simp [hr, u16Add_one_ok h0]

theorem subBits_ok {p : Profile} {fs : List Nat} {bs : List Bool}
    (hs : ∀ i, bs.getD i false = true → 1 ≤ fs.getD i 0) :
    ∃ fs', subBits p fs bs = .ok fs' ∧ fs'.length = fs.length ∧
      ∀ i, fs'.getD i 0 + (bs.getD i false).toNat = fs.getD i 0 := by
  induction fs generalizing bs with
  | nil =>
    cases bs with
    | nil => exact ⟨_, rfl, rfl, by simp⟩
    | cons b bs =>
      refine ⟨[], rfl, rfl, ?_⟩
      intro i
      cases hb : (b :: bs).getD i false with
      | false => rfl
      | true => have := hs i hb; simp at this
  | cons f fs ih =>
    cases bs with
    | nil => exact ⟨_, rfl, rfl, by simp⟩
    | cons b bs =>
      obtain ⟨r, hr, hl, h2⟩ := ih (bs := bs) (fun i h => by simpa using hs (i + 1) (by simpa using h))
      simp only [subBits]
      cases b with
      | false =>
        refine ⟨f :: r, by simp [hr], by simp [hl], ?_⟩
        intro i
        cases i with
        | zero => simp
        | succ i => simpa using h2 i
      | true =>
        have h0 : 1 ≤ f := by simpa using hs 0 (by simp)
        refine ⟨(f - 1) :: r, by simp [hr, u16Sub_one h0], by simp [hl], ?_⟩
        intro i
        cases i with
        | zero => simp; omega
        | succ i => simpa using h2 i

/-! ## The invariant -/

/-- The two bitmaps of a peer fit the number of pieces; at most four pieces are assigned to it. -/
def InfoOk (n : Nat) (i : PeerInfo) : Prop :=
  i.haves.len = n ∧ i.haves.WF ∧ i.working.len = n ∧ i.working.WF ∧ i.working.weight ≤ 4

/-- What holds in every reachable state. -/
structure Inv (n : Nat) (s : TM) : Prop where
  npos : 0 < n
  pieces : s.pieces.length = n
  loc : s.localData.len = n ∧ s.localData.WF
  act : s.activePieces.len = n ∧ s.activePieces.WF
  freq : s.frequencyMap.length = n
  asg : s.assignedPeerCount = List.replicate n 0
  wf : s.activePeers.WF
  len : s.activePeers.length ≤ 10
  infos : ∀ e ∈ s.activePeers, InfoOk n e.2
  conn : ∀ k ∈ s.activePeers.keys, k ∈ s.connection.peers
  weight : s.activePieces.weight + s.slots ≤ 9
  known : s.peers.data.WF

/-- Number of active peers that hold piece `i`. -/
def cnt (s : TM) (i : Nat) : Nat := s.activePeers.count (fun x => bitAt x.haves.data i)

/-- The part of the manager's knowledge of a peer that the specification speaks of. -/
def viewOf (i : PeerInfo) : PeerView := ⟨i.choking, bitAt i.haves.data⟩

theorem info_new {n : Nat} (hn : 0 < n) : ∃ i, PeerInfo.new n = .ok i ∧ InfoOk n i ∧ viewOf i = .fresh ∧
    i.working.weight = 0 := by
  obtain ⟨b, h1, h2, h3, h4, h5⟩ := Bitmap.new_full hn
  refine ⟨⟨true, false, b, b⟩, by simp [PeerInfo.new, h1], ⟨h2, h3, h2, h3, by show b.weight ≤ 4; omega⟩, ?_, h5⟩
  simp only [viewOf, PeerView.fresh]
  congr 1
  funext i; exact h4 i

theorem bits_getD {b : Bitmap} (i : Nat) :
    ((List.range b.len).map (bitAt b.data)).getD i false = if i < b.len then bitAt b.data i else false := by
  simp only [List.getD, List.getElem?_map]
  by_cases h : i < b.len
  · simp [List.getElem?_range h, h]
  · rw [List.getElem?_eq_none (by simp; omega)]; simp [h]

theorem bytes_of_wf {b : Bitmap} (h : b.WF) : b.len ≤ 8 * b.data.length := by
  rw [h.2]; omega

/-! ## Messages -/

theorem get?_infoOk {n : Nat} {s : TM} (hi : Inv n s) {peer : Peer} {info : PeerInfo}
    (h : s.activePeers.get? peer = some info) : InfoOk n info := hi.infos _ (Map.mem_of_get? h)

/-- Changing the stored information of one peer keeps the invariant. -/
theorem inv_modify {n : Nat} {s : TM} (hi : Inv n s) (peer : Peer) (g : PeerInfo → PeerInfo)
    (hg : ∀ i, s.activePeers.get? peer = some i → InfoOk n (g i)) (f : List Nat) (hf : f.length = n) :
    Inv n { s with activePeers := s.activePeers.modify peer g, frequencyMap := f } := by
  refine ⟨hi.npos, hi.pieces, hi.loc, hi.act, hf, hi.asg, Map.wf_modify hi.wf _ _, ?_, ?_, ?_, hi.weight, hi.known⟩
  · show (s.activePeers.modify peer g).length ≤ 10
    simp only [Map.modify, List.length_map]; exact hi.len
  · intro e he
    rcases Map.mem_modify he with h | ⟨v, hv, rfl⟩
    · exact hi.infos e h
    · exact hg v (Map.get?_of_mem hi.wf hv)
  · intro k hk
    exact hi.conn k (by simpa using hk)

/-- The counters neither overflow nor underflow. -/
def Sound (n : Nat) (p : Profile) (s : TM) : Prop :=
  (p = .debug ∨ ∀ i, s.frequencyMap.getD i 0 < 65535) ∧ ∀ i < n, s.cnt i ≤ s.frequencyMap.getD i 0

theorem addBits_length {p : Profile} {fs fs' : List Nat} {bs : List Bool} (h : addBits p fs bs = .ok fs') :
    fs'.length = fs.length := by
  induction fs generalizing bs fs' with
  | nil =>
    induction bs with
    | nil => cases h; rfl
    | cons b bs ih =>
      cases b with
      | true => cases h
      | false => exact ih h
  | cons f fs ih =>
    cases bs with
    | nil => cases h; rfl
    | cons b bs =>
      simp only [addBits] at h
      obtain ⟨f', hf, h⟩ := Res.bind_eq_ok.mp h
      obtain ⟨r, hr, h⟩ := Res.bind_eq_ok.mp h
      cases h
      simp [ih hr]

theorem subBits_length {p : Profile} {fs fs' : List Nat} {bs : List Bool} (h : subBits p fs bs = .ok fs') :
    fs'.length = fs.length := by
  induction fs generalizing bs fs' with
  | nil => cases bs <;> cases h <;> rfl
  | cons f fs ih =>
    cases bs with
    | nil => cases h; rfl
    | cons b bs =>
      simp only [subBits] at h
      obtain ⟨f', hf, h⟩ := Res.bind_eq_ok.mp h
      obtain ⟨r, hr, h⟩ := Res.bind_eq_ok.mp h
      cases h
      simp [ih hr]

/-- The effect of handling a message (other than the unimplemented ones), seen from outside; the counters move
with the holders under the condition `C`. -/
def MsgEffect (n : Nat) (C : Prop) (s : TM) (peer : Peer) (m : ConMessageType) (s' : TM) : Prop :=
  Inv n s' ∧ (s'.peers = s.peers ∧ s'.pieces = s.pieces) ∧
  (C → ∀ i < n, s'.frequencyMap.getD i 0 + s.cnt i = s.frequencyMap.getD i 0 + s'.cnt i) ∧
  ∀ q, (s'.activePeers.get? q).map viewOf =
    if q = peer then ((s.activePeers.get? q).map viewOf).bind (fun v => v.hear n m) else (s.activePeers.get? q).map viewOf

/-- Messages that only touch flags. -/
theorem flag_effect {n : Nat} {C : Prop} {s : TM} (hi : Inv n s) (peer : Peer) (g : PeerInfo → PeerInfo) (m : ConMessageType)
    (hh : ∀ i, (g i).haves = i.haves) (hw : ∀ i, (g i).working = i.working)
    (hv : ∀ i, some (viewOf (g i)) = (viewOf i).hear n m) :
    MsgEffect n C s peer m { s with activePeers := s.activePeers.modify peer g } := by
  refine ⟨?_, ⟨rfl, rfl⟩, ?_, ?_⟩
  · exact inv_modify hi peer g (fun i h => by
      have := get?_infoOk hi h
      simpa [InfoOk, hh, hw] using this) s.frequencyMap hi.freq
  · intro _ i _
    simp only [cnt]
    cases hg : s.activePeers.get? peer with
    | none => rw [Map.modify_of_not_mem hg]
    | some o =>
      have := Map.count_modify (f := fun x : PeerInfo => bitAt x.haves.data i) hi.wf (g := g) hg
      simp only [hh] at this
      omega
  · intro q
    show ((s.activePeers.modify peer g).get? q).map viewOf = _
    rw [Map.get?_modify]
    by_cases hq : q = peer
    · simp only [hq, if_true]
      cases s.activePeers.get? peer with
      | none => rfl
      | some o => simpa using hv o
    · simp only [hq, if_false]

theorem keep_effect {n : Nat} {C : Prop} {s : TM} (hi : Inv n s) (peer : Peer) (m : ConMessageType)
    (hv : ∀ i, s.activePeers.get? peer = some i → some (viewOf i) = (viewOf i).hear n m) : MsgEffect n C s peer m s := by
  refine ⟨hi, ⟨rfl, rfl⟩, fun _ i _ => rfl, ?_⟩
  intro q
  by_cases hq : q = peer
  · simp only [hq, if_true]
    cases h : s.activePeers.get? peer with
    | none => rfl
    | some o => simpa using hv o h
  · simp only [hq, if_false]

theorem sub_ok {n : Nat} {p : Profile} {s : TM} (hi : Inv n s) (hge : ∀ i < n, s.cnt i ≤ s.frequencyMap.getD i 0)
    {peer : Peer} {info : PeerInfo} (hg : s.activePeers.get? peer = some info) :
    ∃ f, subBits p s.frequencyMap ((List.range info.haves.len).map (bitAt info.haves.data)) = .ok f ∧
      ∀ i, f.getD i 0 + (((List.range info.haves.len).map (bitAt info.haves.data)).getD i false).toNat =
        s.frequencyMap.getD i 0 := by
  have hio := get?_infoOk hi hg
  have hc : ∀ i, Map.count (fun x : PeerInfo => bitAt x.haves.data i) (s.activePeers.erase peer) +
      (bitAt info.haves.data i).toNat = s.cnt i := fun i => Map.count_erase hi.wf hg
  obtain ⟨f, h1, h2, h3⟩ := subBits_ok (p := p) (fs := s.frequencyMap)
    (bs := (List.range info.haves.len).map (bitAt info.haves.data)) (by
      intro i hb
      rw [bits_getD] at hb
      split at hb
      · next hlt =>
        have := hge i (by rw [← hio.1]; exact hlt)
        have := hc i
        rw [hb] at this
        simp at this
        omega
      · cases hb)
  exact ⟨f, h1, h3⟩

theorem sub_exact {n : Nat} {p : Profile} {s : TM} (hi : Inv n s) (hge : ∀ i < n, s.cnt i ≤ s.frequencyMap.getD i 0)
    {peer : Peer} {info : PeerInfo} (hg : s.activePeers.get? peer = some info) {f : List Nat}
    (hf : subBits p s.frequencyMap ((List.range info.haves.len).map (bitAt info.haves.data)) = .ok f) (i : Nat) :
    f.getD i 0 + (((List.range info.haves.len).map (bitAt info.haves.data)).getD i false).toNat =
        s.frequencyMap.getD i 0 := by
  obtain ⟨f', h1, h2⟩ := sub_ok (p := p) hi hge hg
  rw [hf] at h1
  cases h1
  exact h2 i

theorem inactive_ok {n : Nat} {p : Profile} {s : TM} (hi : Inv n s) (hge : ∀ i < n, s.cnt i ≤ s.frequencyMap.getD i 0)
    (peer : Peer) (st : Status) : ∃ s', s.markPeerAsInactive p peer st = .ok s' := by
  cases hg : s.activePeers.get? peer with
  | none => exact ⟨s, by simp [markPeerAsInactive, hg]⟩
  | some info =>
    have hio := get?_infoOk hi hg
    obtain ⟨f, h1, _⟩ := sub_ok (p := p) hi hge hg
    simp only [markPeerAsInactive, hg, Bitmap.toBools_eq hio.2.1, Res.ok_bind, h1]
    exact ⟨_, rfl⟩

theorem inactive_effect {n : Nat} {p : Profile} {s s' : TM} (hi : Inv n s)
    (peer : Peer) (st : Status) (m : ConMessageType) (hm : m = .unreachable ∨ m = .disconnected)
    (h : s.markPeerAsInactive p peer st = .ok s') : MsgEffect n (Sound n p s) s peer m s' := by
  have hh : ∀ v : PeerView, v.hear n m = none := by rcases hm with rfl | rfl <;> intro v <;> rfl
  cases hg : s.activePeers.get? peer with
  | none =>
    simp only [markPeerAsInactive, hg] at h
    cases h
    refine keep_effect hi peer m ?_
    intro i h; rw [hg] at h; cases h
  | some info =>
    have hio := get?_infoOk hi hg
    have hc : ∀ i, Map.count (fun x : PeerInfo => bitAt x.haves.data i) (s.activePeers.erase peer) +
        (bitAt info.haves.data i).toNat = s.cnt i := fun i => Map.count_erase hi.wf hg
    simp only [markPeerAsInactive, hg, Bitmap.toBools_eq hio.2.1, Res.ok_bind] at h
    obtain ⟨f, hf, h⟩ := Res.bind_eq_ok.mp h
    cases h
    have h2 := subBits_length hf
    refine ⟨?_, ⟨rfl, rfl⟩, ?_, ?_⟩
    · refine ⟨hi.npos, hi.pieces, hi.loc, hi.act, by rw [← hi.freq]; exact h2, hi.asg, Map.wf_erase hi.wf _, ?_, ?_, ?_,
        hi.weight, hi.known⟩
      · exact Nat.le_trans (Map.length_erase_le _ _) hi.len
      · intro e he; exact hi.infos e (List.mem_filter.mp he).1
      · intro k hk
        apply hi.conn
        have hk' : k ∈ (s.activePeers.erase peer).keys := hk
        rw [Map.keys_erase] at hk'
        exact (List.mem_filter.mp hk').1
    · intro hC i hlt
      have h3 := sub_exact hi hC.2 hg hf i
      rw [bits_getD, if_pos (by rw [hio.1]; exact hlt)] at h3
      have := hc i
      show f.getD i 0 + s.cnt i = s.frequencyMap.getD i 0 + Map.count _ (s.activePeers.erase peer)
      omega
    · intro q
      show ((s.activePeers.erase peer).get? q).map viewOf = _
      rw [Map.get?_erase]
      by_cases hq : q = peer
      · simp only [hq, if_true]
        cases s.activePeers.get? peer with
        | none => rfl
        | some o => simp [hh]
      · simp only [hq, if_false]

theorem have_effect {n : Nat} {p : Profile} {s s' : TM} (hi : Inv n s) (peer : Peer) (k : U32)
    (h : s.handleHave p peer k.toNat = .ok s') : MsgEffect n (Sound n p s) s peer (.have_ k) s' := by
  cases hg : s.activePeers.get? peer with
  | none =>
    simp only [handleHave, hg] at h
    cases h
    refine keep_effect hi peer _ ?_
    intro i h; rw [hg] at h; cases h
  | some info =>
    have hio := get?_infoOk hi hg
    simp only [handleHave, hg] at h
    obtain ⟨⟨h', old⟩, hch, h⟩ := Res.bind_eq_ok.mp h
    have hlt : k.toNat < 8 * info.haves.data.length := by
      apply Classical.byContradiction
      intro hn
      rw [Bitmap.change_of_ge _ _ _ (by omega)] at hch
      cases hch
    obtain ⟨b', c1, c2, c3, c4, c5⟩ := Bitmap.change_set hio.2.1 hlt
    rw [c1] at hch
    cases hch
    have hbits : ∀ j, bitAt h'.data j = (bitAt info.haves.data j || decide (j = k.toNat)) := by
      intro j
      rw [c4]
      by_cases hj : j = k.toNat <;> simp [hj]
    have hok : InfoOk n { info with haves := h' } := ⟨by rw [c2]; exact hio.1, c3, hio.2.2⟩
    have hokg : ∀ i, s.activePeers.get? peer = some i → InfoOk n { i with haves := h' } := by
      intro i hh; rw [hg] at hh; cases hh; exact hok
    have hview : ∀ q, ((s.activePeers.modify peer (fun x => { x with haves := h' })).get? q).map viewOf =
        if q = peer then ((s.activePeers.get? q).map viewOf).bind (fun v => v.hear n (.have_ k))
        else (s.activePeers.get? q).map viewOf := by
      intro q
      rw [Map.get?_modify]
      by_cases hq : q = peer
      · simp only [hq, if_true, hg, Option.map_some, Option.bind_some, PeerView.hear, viewOf]
        congr 2
        funext j
        exact hbits j
      · simp only [hq, if_false]
    have hcnt : ∀ i, Map.count (fun x : PeerInfo => bitAt x.haves.data i)
        (s.activePeers.modify peer (fun x => { x with haves := h' })) + (bitAt info.haves.data i).toNat =
        s.cnt i + (bitAt h'.data i).toNat := fun i =>
      Map.count_modify (f := fun x : PeerInfo => bitAt x.haves.data i) hi.wf
        (g := fun x => { x with haves := h' }) hg
    by_cases ho : bitAt info.haves.data k.toNat
    · simp only [ho, if_true] at h
      cases h
      refine ⟨inv_modify hi peer _ hokg s.frequencyMap hi.freq, ⟨rfl, rfl⟩, ?_, hview⟩
      intro _ i hlt'
      have := hcnt i
      rw [hbits i] at this
      show s.frequencyMap.getD i 0 + s.cnt i = s.frequencyMap.getD i 0 +
        Map.count (fun x : PeerInfo => bitAt x.haves.data i) (s.activePeers.modify peer (fun x => { x with haves := h' }))
      by_cases hik : i = k.toNat
      · simp [hik, ho] at this ⊢; omega
      · simp [hik] at this ⊢; omega
    · simp only [ho, Bool.false_eq_true, if_false] at h
      obtain ⟨f, hf, h⟩ := Res.bind_eq_ok.mp h
      obtain ⟨f', hf', h⟩ := Res.bind_eq_ok.mp h
      cases h
      have hfv := index_eq_ok.mp hf
      have hfe : s.frequencyMap.getD k.toNat 0 = f := by simp [List.getD, hfv]
      have hkl : k.toNat < s.frequencyMap.length := by
        apply Classical.byContradiction
        intro hn
        rw [List.getElem?_eq_none (by omega)] at hfv
        cases hfv
      refine ⟨inv_modify hi peer _ hokg _ (by simp [hi.freq]), ⟨rfl, rfl⟩, ?_, hview⟩
      intro hC i hlt'
      have hf1 : f' = f + 1 := u16Add_one (hC.1.imp id (fun h => by rw [← hfe]; exact h _)) hf'
      have := hcnt i
      rw [hbits i] at this
      show (s.frequencyMap.set k.toNat f').getD i 0 + s.cnt i =
        s.frequencyMap.getD i 0 +
        Map.count (fun x : PeerInfo => bitAt x.haves.data i) (s.activePeers.modify peer (fun x => { x with haves := h' }))
      by_cases hik : i = k.toNat
      · subst hik
        have e : (s.frequencyMap.set k.toNat f').getD k.toNat 0 = f' := by
          simp [List.getD, List.getElem?_set, hkl]
        rw [e, hfe]
        simp [ho] at this
        omega
      · have e : (s.frequencyMap.set k.toNat f').getD i 0 = s.frequencyMap.getD i 0 := by
          simp only [List.getD, List.getElem?_set]
          rw [if_neg (fun h => hik h.symm)]
        rw [e]
        simp [hik] at this
        omega

theorem have_ok {n : Nat} {p : Profile} {s : TM} (hi : Inv n s) (hs : ∀ i, s.frequencyMap.getD i 0 < 65535)
    (peer : Peer) {k : Nat} (hk : k < n) : ∃ s', s.handleHave p peer k = .ok s' := by
  cases hg : s.activePeers.get? peer with
  | none => exact ⟨s, by simp [handleHave, hg]⟩
  | some info =>
    have hio := get?_infoOk hi hg
    have hb := bytes_of_wf hio.2.1
    obtain ⟨b', c1, _⟩ := Bitmap.change_set hio.2.1 (i := k) (by rw [hio.1] at hb; omega)
    simp only [handleHave, hg, c1, Res.ok_bind]
    split
    · exact ⟨_, rfl⟩
    · have hkl : k < s.frequencyMap.length := by rw [hi.freq]; exact hk
      have := hs k
      simp only [List.getD, List.getElem?_eq_getElem hkl, Option.getD_some] at this
      rw [index_lt hkl, Res.ok_bind, u16Add_one_ok this]
      exact ⟨_, rfl⟩

theorem bitfield_effect {n : Nat} {p : Profile} {s s' : TM} (hi : Inv n s) (peer : Peer) (b : Bytes)
    (h : s.acceptBitfield p b peer = .ok s') : MsgEffect n (Sound n p s) s peer (.bitfield b) s' := by
  cases hg : s.activePeers.get? peer with
  | none =>
    simp only [acceptBitfield, hg] at h
    cases h
    refine keep_effect hi peer _ ?_
    intro i h; rw [hg] at h; cases h
  | some info =>
    have hio := get?_infoOk hi hg
    have hdl : info.haves.data.length = (n + 7) / 8 := by rw [hio.2.1.2, hio.1]
    simp only [acceptBitfield, hg] at h
    by_cases hw : info.haves.weight > 0
    · rw [if_pos hw] at h
      cases h
      refine keep_effect hi peer _ ?_
      intro i hh
      rw [hg] at hh; cases hh
      simp only [PeerView.hear]
      rw [if_neg]
      rintro ⟨h1, h2⟩
      have : info.haves.weight = 0 := (Bitmap.weight_zero_iff _).mpr (by
        intro j hj; exact h2 j (by rw [h1, ← hdl]; exact hj))
      omega
    · rw [if_neg hw] at h
      have hz := (Bitmap.weight_zero_iff info.haves).mp (by omega)
      have hzall : ∀ j, bitAt info.haves.data j = false := by
        intro j
        by_cases hj : j < 8 * info.haves.data.length
        · exact hz j hj
        · exact Bitmap.bitAt_ge (by omega)
      by_cases hl : b.length ≠ info.haves.data.length
      · simp only [Bitmap.replaceData, if_pos hl] at h
        cases h
        refine keep_effect hi peer _ ?_
        intro i hh
        rw [hg] at hh; cases hh
        simp only [PeerView.hear]
        rw [if_neg]
        rintro ⟨h1, _⟩
        exact hl (by rw [h1, hdl])
      · simp only [Bitmap.replaceData, if_neg hl] at h
        have hl' : b.length = info.haves.data.length := by simpa using hl
        obtain ⟨bits, hbits, h⟩ := Res.bind_eq_ok.mp h
        obtain ⟨f, hf, h⟩ := Res.bind_eq_ok.mp h
        cases h
        have hwf : Bitmap.WF { info.haves with data := b } := ⟨hio.2.1.1, by
          show b.length = _
          rw [hl']; exact hio.2.1.2⟩
        rw [Bitmap.toBools_eq hwf] at hbits
        cases hbits
        have hf1 := addBits_length hf
        refine ⟨inv_modify hi peer _ ?_ f (by rw [hf1, hi.freq]), ⟨rfl, rfl⟩, ?_, ?_⟩
        · intro i hh
          rw [hg] at hh; cases hh
          exact ⟨hio.1, hwf, hio.2.2⟩
        · intro hC i hlt
          have hf2 := (addBits_spec hC.1 hf).2
          have hc := Map.count_modify (f := fun x : PeerInfo => bitAt x.haves.data i) hi.wf
            (g := fun x => { x with haves := { info.haves with data := b } }) hg
          have h2 := hf2 i
          rw [bits_getD (b := { info.haves with data := b })] at h2
          have hlt' : i < info.haves.len := by rw [hio.1]; exact hlt
          simp only [hlt', if_true, hzall, Bool.toNat_false] at h2 hc
          show f.getD i 0 + s.cnt i = s.frequencyMap.getD i 0 +
            Map.count (fun x : PeerInfo => bitAt x.haves.data i)
              (s.activePeers.modify peer (fun x => { x with haves := { info.haves with data := b } }))
          simp only [cnt]
          omega
        · intro q
          show ((s.activePeers.modify peer (fun x => { x with haves := { info.haves with data := b } })).get? q).map viewOf = _
          rw [Map.get?_modify]
          by_cases hq : q = peer
          · simp only [hq, if_true, hg, Option.map_some, Option.bind_some, PeerView.hear, viewOf]
            rw [if_pos ⟨by rw [hl', hdl], fun j _ => hzall j⟩]
          · simp only [hq, if_false]

theorem bitfield_ok {n : Nat} {p : Profile} {s : TM} (hi : Inv n s) (hs : ∀ i, s.frequencyMap.getD i 0 < 65535)
    (peer : Peer) (b : Bytes) : ∃ s', s.acceptBitfield p b peer = .ok s' := by
  cases hg : s.activePeers.get? peer with
  | none => exact ⟨s, by simp [acceptBitfield, hg]⟩
  | some info =>
    have hio := get?_infoOk hi hg
    simp only [acceptBitfield, hg]
    by_cases hw : info.haves.weight > 0
    · rw [if_pos hw]; exact ⟨_, rfl⟩
    · rw [if_neg hw]
      by_cases hl : b.length ≠ info.haves.data.length
      · simp only [Bitmap.replaceData, if_pos hl]; exact ⟨_, rfl⟩
      · simp only [Bitmap.replaceData, if_neg hl]
        have hl' : b.length = info.haves.data.length := by simpa using hl
        have hwf : Bitmap.WF { info.haves with data := b } := ⟨hio.2.1.1, by
          show b.length = _
          rw [hl']; exact hio.2.1.2⟩
        rw [Bitmap.toBools_eq hwf, Res.ok_bind]
        obtain ⟨f, hf⟩ := addBits_ok (p := p) (fs := s.frequencyMap)
          (bs := (List.range info.haves.len).map (bitAt b)) hs (by simp [hi.freq, hio.1])
        simp only [hf, Res.ok_bind]
        exact ⟨_, rfl⟩

/-- Every message that is handled has the specified effect. -/
theorem handle_effect {n : Nat} {p : Profile} {s s' : TM} (hi : Inv n s) (peer : Peer) (m : ConMessageType)
    (h : s.handleCommand p peer m = .ok s') : MsgEffect n (Sound n p s) s peer m s' := by
  cases m with
  | unreachable => exact inactive_effect hi peer .unableToConnect _ (.inl rfl) h
  | disconnected => exact inactive_effect hi peer .unknown _ (.inr rfl) h
  | keepAlive => cases h; exact keep_effect hi peer _ (fun i _ => rfl)
  | choke => cases h; exact flag_effect hi peer _ _ (fun _ => rfl) (fun _ => rfl) (fun _ => rfl)
  | unchoke => cases h; exact flag_effect hi peer _ _ (fun _ => rfl) (fun _ => rfl) (fun _ => rfl)
  | interested => cases h; exact flag_effect hi peer _ _ (fun _ => rfl) (fun _ => rfl) (fun _ => rfl)
  | notInterested => cases h; exact flag_effect hi peer _ _ (fun _ => rfl) (fun _ => rfl) (fun _ => rfl)
  | have_ k => exact have_effect hi peer k h
  | bitfield b => exact bitfield_effect hi peer b h
  | request r => cases h
  | finishedPiece i bs => cases h
  | cancel r => cases h

/-! ## Ticks -/

theorem remaining_lt {n : Nat} {s : TM} (hi : Inv n s) {bits : List Bool} {x : Nat × Nat × Nat} (h : x ∈ s.remaining bits) :
    x.1 < n := by
  have := (mem_remaining h).2.1
  apply Classical.byContradiction
  intro hn
  rw [List.getElem?_eq_none (by rw [hi.freq]; omega)] at this
  cases this

theorem sequential_ok {n : Nat} {s : TM} (hi : Inv n s) : ∃ r, s.sequentialSelectPiece = .ok r := by
  simp only [sequentialSelectPiece, Bitmap.toBools_eq hi.loc.2, Res.ok_bind]
  refine selectLoop_ok ?_ ?_ _ _
  · intro x hx
    rw [hi.asg, List.length_replicate]
    exact remaining_lt hi hx
  · intro x hx e he
    have := remaining_lt hi hx
    have h := hi.infos e he
    have hb := bytes_of_wf h.2.1
    rw [h.1] at hb
    omega

theorem sequential_some {s : TM} (hw : s.localData.WF) {peer : Peer} {idx : Nat}
    (h : s.sequentialSelectPiece = .ok (some (peer, idx))) :
    (∃ info, (peer, info) ∈ s.activePeers ∧ info.choking = false ∧ info.haves.get idx = .ok true ∧
      info.working.weight < 4) ∧ idx < s.localData.len ∧ bitAt s.localData.data idx = false ∧
    0 < s.frequencyMap.getD idx 0 ∧ idx < s.frequencyMap.length ∧ s.assignedPeerCount.getD idx 0 < 3 := by
  simp only [sequentialSelectPiece, Bitmap.toBools_eq hw, Res.ok_bind] at h
  obtain ⟨j, h1, h2, h3, h4, _⟩ := selectLoop_some h
  obtain ⟨⟨x, hx, he⟩, ha⟩ := findAssigned_some h3
  obtain ⟨info, i1, i2, i3, i4⟩ := findPeer_some h4
  obtain ⟨m1, m2, m3, m4⟩ := mem_remaining hx
  rw [he] at m1 m2 m4
  refine ⟨⟨info, i1, i2, i3, by omega⟩, ?_, ?_, ?_, ?_, ?_⟩
  · apply Classical.byContradiction
    intro hn
    rw [List.getElem?_eq_none (by simp; omega)] at m1
    cases m1
  · simp only [List.getElem?_map, Option.map_eq_some_iff] at m1
    obtain ⟨a, ha, hb⟩ := m1
    have := List.getElem?_eq_some_iff.mp ha
    obtain ⟨h5, h6⟩ := this
    simp at h6
    rw [h6]; exact hb
  · simp [List.getD, m2]; exact m3
  · apply Classical.byContradiction
    intro hn
    rw [List.getElem?_eq_none (by omega)] at m2
    cases m2
  · have := index_eq_ok.mp ha
    simp only [List.getD, this, Option.getD_some]
    omega

theorem select_ok {n : Nat} {s : TM} (hi : Inv n s) : ∃ r, s.selectPiece = .ok r := by
  obtain ⟨r, hr⟩ := sequential_ok hi
  simp only [selectPiece, hr, Res.ok_bind]
  cases r with
  | none => exact ⟨_, rfl⟩
  | some x =>
    obtain ⟨peer, idx⟩ := x
    have h := sequential_some hi.loc.2 hr
    have : idx < s.pieces.length := by rw [hi.pieces, ← hi.loc.1]; exact h.2.1
    simp only [List.getElem?_eq_getElem this, Res.unwrap, Res.ok_bind]
    exact ⟨_, rfl⟩

theorem select_some {s : TM} {peer : Peer} {idx : Nat} {h : ID} (hs : s.selectPiece = .ok (some (peer, idx, h))) :
    s.sequentialSelectPiece = .ok (some (peer, idx)) ∧ s.pieces[idx]? = some h := by
  simp only [selectPiece] at hs
  obtain ⟨r, hr, hs⟩ := Res.bind_eq_ok.mp hs
  cases r with
  | none => cases hs
  | some x =>
    obtain ⟨p, i⟩ := x
    simp only at hs
    obtain ⟨h', hh, hs⟩ := Res.bind_eq_ok.mp hs
    cases hs
    refine ⟨hr, ?_⟩
    cases hp : s.pieces[idx]? with
    | none => rw [hp] at hh; cases hh
    | some x => rw [hp] at hh; simp [Res.unwrap] at hh; rw [hh]

/-- What starting downloads leaves alone. -/
structure Same (s s' : TM) : Prop where
  pieces : s'.pieces = s.pieces
  connection : s'.connection = s.connection
  inactive : s'.inactivePeers = s.inactivePeers
  peers : s'.peers = s.peers
  loc : s'.localData = s.localData
  freq : s'.frequencyMap = s.frequencyMap
  asg : s'.assignedPeerCount = s.assignedPeerCount
  keys : s'.activePeers.keys = s.activePeers.keys
  views : ∀ q, (s'.activePeers.get? q).map viewOf = (s.activePeers.get? q).map viewOf
  cnt : ∀ i, s'.cnt i = s.cnt i

theorem Same.refl (s : TM) : Same s s := ⟨rfl, rfl, rfl, rfl, rfl, rfl, rfl, rfl, fun _ => rfl, fun _ => rfl⟩

theorem Same.trans {a b c : TM} (h1 : Same a b) (h2 : Same b c) : Same a c :=
  ⟨h2.pieces.trans h1.pieces, h2.connection.trans h1.connection, h2.inactive.trans h1.inactive, h2.peers.trans h1.peers,
   h2.loc.trans h1.loc, h2.freq.trans h1.freq, h2.asg.trans h1.asg, h2.keys.trans h1.keys,
   fun q => (h2.views q).trans (h1.views q), fun i => (h2.cnt i).trans (h1.cnt i)⟩

theorem mark_spec {n : Nat} {s : TM} (hi : Inv n s) {peer : Peer} {info : PeerInfo} {idx : Nat}
    (hp : s.activePeers.get? peer = some info) (hidx : idx < n) (hw : info.working.weight < 4)
    {k : Nat} (hk : s.slots = k + 1) :
    ∃ s', s.markPieceAsOngoing peer idx = .ok s' ∧ Inv n { s' with slots := k } ∧ Same s { s' with slots := k } ∧
      s'.activePieces.weight ≤ s.activePieces.weight + 1 ∧ bitAt s'.activePieces.data idx = true := by
  have hio := get?_infoOk hi hp
  obtain ⟨i0, hi0, _⟩ := info_new hi.npos
  have hb1 := bytes_of_wf hi.act.2
  rw [hi.act.1] at hb1
  have hb2 := bytes_of_wf hio.2.2.2.1
  rw [hio.2.2.1] at hb2
  obtain ⟨a, a1, a2, a3, a4, a5⟩ := Bitmap.change_set hi.act.2 (i := idx) (by omega)
  obtain ⟨w, w1, w2, w3, w4, w5⟩ := Bitmap.change_set hio.2.2.2.1 (i := idx) (by omega)
  have hin : peer ∈ s.activePeers.keys := by
    apply Classical.byContradiction
    intro hn
    rw [Map.get?_eq_none.mpr hn] at hp; cases hp
  refine ⟨{ s with activePieces := a, activePeers := s.activePeers.insert peer { info with working := w } }, ?_, ?_, ?_, ?_, ?_⟩
  · simp [markPieceAsOngoing, hi.act.1, hi0, hp, a1, w1]
  · have hk := Map.keys_insert_of_mem (v := { info with working := w }) hin
    refine ⟨hi.npos, hi.pieces, hi.loc, ⟨by rw [a2]; exact hi.act.1, a3⟩, hi.freq, hi.asg, Map.wf_insert hi.wf _ _, ?_, ?_, ?_,
      ?_, hi.known⟩
    · show (s.activePeers.insert peer { info with working := w }).length ≤ 10
      rw [Map.length_insert, if_pos hin]
      exact hi.len
    · intro e he
      rcases Map.mem_insert he with h | h
      · exact hi.infos e h
      · subst h
        refine ⟨hio.1, hio.2.1, by rw [w2]; exact hio.2.2.1, w3, ?_⟩
        show w.weight ≤ 4
        rw [w5]; split <;> omega
    · intro k hk'
      apply hi.conn
      rw [← hk]; exact hk'
    · have := hi.weight
      show a.weight + k ≤ 9
      rw [a5]; split <;> omega
  · refine ⟨rfl, rfl, rfl, rfl, rfl, rfl, rfl, Map.keys_insert_of_mem hin, ?_, ?_⟩
    · intro q
      show ((s.activePeers.insert peer { info with working := w }).get? q).map viewOf = _
      rw [Map.get?_insert]
      by_cases hq : q = peer
      · simp [hq, hp, viewOf]
      · simp [hq]
    · intro i
      have := Map.count_insert_some (f := fun x : PeerInfo => bitAt x.haves.data i) (v := { info with working := w }) hp
      simp only at this
      show Map.count _ (s.activePeers.insert peer { info with working := w }) = Map.count _ s.activePeers
      omega
  · show a.weight ≤ _
    rw [a5]; split <;> omega
  · show bitAt a.data idx = true
    rw [a4, if_pos rfl]

/-- What is known of every pair that is asked for. -/
def Feasible (s : TM) (x : Peer × Nat × ID) : Prop :=
  s.pieces[x.2.1]? = some x.2.2 ∧ s.localData.get x.2.1 = .ok false ∧
  ∃ info, s.activePeers.get? x.1 = some info ∧ info.choking = false ∧ info.haves.get x.2.1 = .ok true

theorem get_of_view {n : Nat} {s : TM} (hi : Inv n s) {peer : Peer} {idx : Nat} (hidx : idx < n) {v : PeerView}
    (hv : (s.activePeers.get? peer).map viewOf = some v) (hc : v.choking = false) (ha : v.announced idx = true) :
    ∃ info, s.activePeers.get? peer = some info ∧ info.choking = false ∧ info.haves.get idx = .ok true := by
  cases hg : s.activePeers.get? peer with
  | none => rw [hg] at hv; cases hv
  | some info =>
    rw [hg] at hv
    cases hv
    have hio := get?_infoOk hi hg
    have hb := bytes_of_wf hio.2.1
    rw [hio.1] at hb
    exact ⟨info, rfl, hc, by rw [Bitmap.get_of_lt _ _ (by omega)]; exact congrArg _ ha⟩

theorem feasible_same {n : Nat} {s s' : TM} (hi : Inv n s) (hi' : Inv n s') (h : Same s s') {x : Peer × Nat × ID}
    (hf : Feasible s x) : Feasible s' x := by
  obtain ⟨h1, h2, info, h3, h4, h5⟩ := hf
  have hidx : x.2.1 < n := by
    rw [← hi.pieces]
    exact (List.getElem?_eq_some_iff.mp h1).1
  refine ⟨by rw [h.pieces]; exact h1, by rw [h.loc]; exact h2, ?_⟩
  have hio := get?_infoOk hi h3
  have hb := bytes_of_wf hio.2.1
  rw [hio.1] at hb
  rw [Bitmap.get_of_lt _ _ (by omega)] at h5
  refine get_of_view hi' hidx (v := viewOf info) ?_ h4 (Res.ok.inj h5)
  rw [h.views, h3]; rfl

theorem select_feasible {n : Nat} {s : TM} (hi : Inv n s) {peer : Peer} {idx : Nat} {h : ID}
    (hs : s.selectPiece = .ok (some (peer, idx, h))) :
    Feasible s (peer, idx, h) ∧ idx < n ∧ ∃ info, s.activePeers.get? peer = some info ∧ info.working.weight < 4 := by
  obtain ⟨s1, s2⟩ := select_some hs
  obtain ⟨⟨info, i1, i2, i3, i4⟩, h2, h3, _⟩ := sequential_some hi.loc.2 s1
  have hg := Map.get?_of_mem hi.wf i1
  refine ⟨⟨s2, ?_, info, hg, i2, i3⟩, by rw [← hi.loc.1]; exact h2, info, hg, i4⟩
  have hb := bytes_of_wf hi.loc.2
  rw [Bitmap.get_of_lt _ _ (by show idx / 8 < _; omega)]
  exact congrArg _ h3

/-- One iteration of the loop keeps everything but the assignments. -/
theorem start_spec {n k : Nat} {sent : Res Unit} {s s' : TM} {peer : Peer} {idx : Nat} {hash : ID} {acc : Bool} (hi : Inv n s)
    (hk : s.slots = k + 1) (hsel : s.selectPiece = .ok (some (peer, idx, hash)))
    (h : s.startDownloadingPiece idx peer sent = .ok (s', acc)) :
    Inv n { s' with slots := k } ∧ Same s { s' with slots := k } := by
  obtain ⟨f1, f2, info, f3, f4⟩ := select_feasible hi hsel
  have hw := hi.weight
  simp only [startDownloadingPiece] at h
  cases hd : s.connection.downloadPiece peer sent with
  | ok u =>
    rw [hd] at h
    obtain ⟨s3, m1, m2, m3, _⟩ := mark_spec hi f3 f2 f4 hk
    simp only [m1, Res.ok_bind] at h
    cases h
    exact ⟨m2, m3⟩
  | err =>
    rw [hd] at h
    cases h
    exact ⟨⟨hi.npos, hi.pieces, hi.loc, hi.act, hi.freq, hi.asg, hi.wf, hi.len, hi.infos, hi.conn, by show s.activePieces.weight + k ≤ 9; omega, hi.known⟩,
      ⟨rfl, rfl, rfl, rfl, rfl, rfl, rfl, rfl, fun _ => rfl, fun _ => rfl⟩⟩
  | panic => rw [hd] at h; cases h

/-- One iteration of the loop panics only if the lock of the shared table is poisoned. -/
theorem start_ok {n k : Nat} {sent : Res Unit} {s : TM} {peer : Peer} {idx : Nat} {hash : ID} (hi : Inv n s)
    (hk : s.slots = k + 1) (hsel : s.selectPiece = .ok (some (peer, idx, hash))) (hs : sent ≠ .panic) :
    ∃ r, s.startDownloadingPiece idx peer sent = .ok r := by
  obtain ⟨f1, f2, info, f3, f4⟩ := select_feasible hi hsel
  simp only [startDownloadingPiece]
  cases hd : s.connection.downloadPiece peer sent with
  | ok u =>
    obtain ⟨s3, m1, _⟩ := mark_spec hi f3 f2 f4 hk
    simp only [m1, Res.ok_bind]
    exact ⟨_, rfl⟩
  | err => exact ⟨_, rfl⟩
  | panic =>
    simp only [Connection.downloadPiece] at hd
    split at hd
    · exact absurd hd hs
    · cases hd

theorem addPeers_spec {n : Nat} {ps : List Peer} {s : TM} (hi : Inv n s) (hl : s.activePeers.length + ps.length ≤ 10) :
    ∃ s', addPeers ps s = .ok s' ∧ Inv n s' ∧ s'.peers = s.peers ∧ s'.frequencyMap = s.frequencyMap ∧
      s'.localData = s.localData ∧ s'.pieces = s.pieces ∧ s'.activePieces = s.activePieces ∧
      (∀ q, (s'.activePeers.get? q).map viewOf = if q ∈ ps then some .fresh else (s.activePeers.get? q).map viewOf) ∧
      (∀ i, s'.cnt i ≤ s.cnt i) ∧
      (ps.Nodup → (∀ q ∈ ps, s.activePeers.get? q = none) → ∀ i, s'.cnt i = s.cnt i) := by
  induction ps generalizing s with
  | nil => exact ⟨s, rfl, hi, rfl, rfl, rfl, rfl, rfl, by simp, fun _ => Nat.le_refl _, fun _ _ _ => rfl⟩
  | cons peer ps ih =>
    obtain ⟨info, n1, n2, n3, n4⟩ := info_new hi.npos
    have hz : ∀ i, bitAt info.haves.data i = false := fun i => congrFun (congrArg PeerView.announced n3) i
    have hlen : (s.activePeers.insert peer info).length ≤ s.activePeers.length + 1 := by
      rw [Map.length_insert]; split <;> omega
    have hi' : Inv n { s with connection := s.connection.connect peer, activePeers := s.activePeers.insert peer info } := by
      refine ⟨hi.npos, hi.pieces, hi.loc, hi.act, hi.freq, hi.asg, Map.wf_insert hi.wf _ _, ?_, ?_, ?_, hi.weight, hi.known⟩
      · show (s.activePeers.insert peer info).length ≤ 10
        simp at hl; omega
      · intro e he
        rcases Map.mem_insert he with h | h
        · exact hi.infos e h
        · subst h; exact n2
      · intro k hk
        have hk' : k ∈ (s.activePeers.insert peer info).keys := hk
        show k ∈ (s.connection.connect peer).peers
        simp only [Connection.connect]
        rcases Map.mem_keys_insert.mp hk' with rfl | h
        · split
          · assumption
          · simp
        · have := hi.conn k h
          split
          · exact this
          · simp [this]
    have hcnt : ∀ i, Map.count (fun x : PeerInfo => bitAt x.haves.data i) (s.activePeers.insert peer info) ≤ s.cnt i := by
      intro i
      cases hg : s.activePeers.get? peer with
      | none =>
        have := Map.count_insert_none (f := fun x : PeerInfo => bitAt x.haves.data i) (v := info) hg
        simp only [hz, Bool.toNat_false] at this
        simp only [cnt]; omega
      | some o =>
        have := Map.count_insert_some (f := fun x : PeerInfo => bitAt x.haves.data i) (v := info) hg
        simp only [hz, Bool.toNat_false] at this
        simp only [cnt]; omega
    obtain ⟨s', e1, e2, e3, e4, e5, e6, e7, e8, e9, e10⟩ := ih hi' (by
      show (s.activePeers.insert peer info).length + _ ≤ 10
      simp at hl; omega)
    refine ⟨s', ?_, e2, e3, e4, e5, e6, e7, ?_, ?_, ?_⟩
    · simp only [addPeers, hi.loc.1, n1, Res.ok_bind, e1]
    · intro q
      rw [e8]
      show (if q ∈ ps then some PeerView.fresh else ((s.activePeers.insert peer info).get? q).map viewOf) = _
      rw [Map.get?_insert]
      by_cases hq : q ∈ ps
      · simp [hq]
      · by_cases hq2 : q = peer
        · simp [hq, hq2, n3]
        · simp [hq, hq2]
    · intro i
      exact Nat.le_trans (e9 i) (hcnt i)
    · intro hnd hno i
      rw [List.nodup_cons] at hnd
      rw [e10 hnd.2 ?_ i]
      · have := Map.count_insert_none (f := fun x : PeerInfo => bitAt x.haves.data i) (v := info) (hno peer (by simp))
        simp only [hz, Bool.toNat_false] at this
        exact this
      · intro q hq
        show (s.activePeers.insert peer info).get? q = none
        rw [Map.get?_insert, if_neg (by rintro rfl; exact hnd.1 hq)]
        exact hno q (by simp [hq])

/-- The effect of the beginning of a tick, seen from outside. -/
structure TickEffect (n : Nat) (s : TM) (batch : List Peer) (s' : TM) : Prop where
  inv : Inv n s'
  pieces : s'.pieces = s.pieces
  freq : s'.frequencyMap = s.frequencyMap
  views : ∀ q, (s'.activePeers.get? q).map viewOf = if q ∈ batch then some .fresh else (s.activePeers.get? q).map viewOf
  cnt_le : ∀ i, s'.cnt i ≤ s.cnt i
  cnt_eq : (∀ q ∈ batch, s.activePeers.get? q = none) → ∀ i, s'.cnt i = s.cnt i

theorem refresh_spec {n : Nat} {p : Profile} {s : TM} (hi : Inv n s) :
    ∃ s' batch, s.refreshPeerList p = .ok (s', batch) ∧ Inv n s' ∧ s'.frequencyMap = s.frequencyMap ∧
      s'.pieces = s.pieces ∧ s'.activePieces = s.activePieces ∧
      (∀ q, (s'.activePeers.get? q).map viewOf = if q ∈ batch then some .fresh else (s.activePeers.get? q).map viewOf) ∧
      (∀ i, s'.cnt i ≤ s.cnt i) ∧ ((∀ q ∈ batch, s.activePeers.get? q = none) → ∀ i, s'.cnt i = s.cnt i) := by
  have hl := hi.len
  have hsub : usizeSub p 10 s.activePeers.length = .ok (10 - s.activePeers.length) := by
    simp only [usizeSub]; rw [if_pos hl]
  simp only [refreshPeerList, hsub, Res.ok_bind]
  by_cases hf : 10 - s.activePeers.length = 0
  · rw [if_pos hf]
    exact ⟨s, [], rfl, hi, rfl, rfl, rfl, by simp, fun _ => Nat.le_refl _, fun _ _ => rfl⟩
  · rw [if_neg hf]
    obtain ⟨cands, b1, b2, b3, b4, b5⟩ := batch_eq hi.known s.inactivePeers (10 - s.activePeers.length)
    generalize hr : s.peers.returnBatch s.inactivePeers (10 - s.activePeers.length) = r at *
    have hwf : r.1.data.WF := by
      rw [← hr]
      exact Peers.step_wf (.batch (bad := s.inactivePeers) (limit := 10 - s.activePeers.length)) hi.known
    have hi' : Inv n { s with peers := r.1, inactivePeers := [] } :=
      ⟨hi.npos, hi.pieces, hi.loc, hi.act, hi.freq, hi.asg, hi.wf, hi.len, hi.infos, hi.conn, hi.weight, hwf⟩
    obtain ⟨s', e1, e2, e3, e4, e5, e6, e7, e8, e9, e10⟩ := addPeers_spec (ps := r.2) hi' (by
      show s.activePeers.length + r.2.length ≤ 10
      rw [b1, List.length_take]; omega)
    rw [e1]
    refine ⟨s', r.2, rfl, e2, e4, e6, e7, e8, e9, fun h => e10 ?_ h⟩
    rw [b1]
    exact (List.take_sublist _ _).nodup b2

theorem tick_effect {n : Nat} {p : Profile} {s s' : TM} {batch : List Peer} (hi : Inv n s)
    (h : s.beginTick p = .ok (s', batch)) : TickEffect n s batch s' := by
  obtain ⟨s1, b, r1, r2, r3, r4, r5, r6, r7, r8⟩ := refresh_spec (p := p) hi
  have hw := r2.weight
  simp only [beginTick, r1, Res.ok_bind] at h
  have hsub : usizeSub p 9 s1.activePieces.weight = .ok (9 - s1.activePieces.weight) := by
    simp only [usizeSub]; rw [if_pos (by omega)]
  simp only [hsub, Res.ok_bind] at h
  cases h
  exact ⟨⟨r2.npos, r2.pieces, r2.loc, r2.act, r2.freq, r2.asg, r2.wf, r2.len, r2.infos, r2.conn,
    by show s1.activePieces.weight + (9 - s1.activePieces.weight) ≤ 9; omega, r2.known⟩, r4, r3, r6, r7, r8⟩

theorem tick_ok {n : Nat} {p : Profile} {s : TM} (hi : Inv n s) : ∃ r, s.beginTick p = .ok r := by
  obtain ⟨s1, b, r1, r2, _⟩ := refresh_spec (p := p) hi
  have hw := r2.weight
  have hsub : usizeSub p 9 s1.activePieces.weight = .ok (9 - s1.activePieces.weight) := by
    simp only [usizeSub]; rw [if_pos (by omega)]
  simp only [beginTick, r1, Res.ok_bind, hsub]
  exact ⟨_, rfl⟩

/-! ## Histories -/

theorem init_inv {pieces : List ID} {peers : Peers} (hp : pieces ≠ []) (hk : peers.data.WF) :
    ∃ s, TM.init pieces peers = .ok s ∧ Inv pieces.length s ∧ s.activePeers = [] ∧
      s.frequencyMap = List.replicate pieces.length 0 ∧ s.pieces = pieces := by
  have hn : 0 < pieces.length := List.length_pos_iff.mpr hp
  obtain ⟨b, h1, h2, h3, h4, h5⟩ := Bitmap.new_full hn
  refine ⟨_, by simp only [TM.init, h1, Res.ok_bind]; rfl, ?_, rfl, rfl, rfl⟩
  refine ⟨hn, rfl, ⟨h2, h3⟩, ⟨h2, h3⟩, by simp, rfl, List.nodup_nil, by simp, by simp, by simp [Map.keys], by show b.weight + 0 ≤ 9; omega, hk⟩

theorem reorder_inv {n : Nat} {s : TM} (hi : Inv n s) {m : Map Peer PeerInfo} (hp : s.activePeers.Perm m) :
    Inv n { s with activePeers := m } ∧ (∀ q, m.get? q = s.activePeers.get? q) ∧
    ∀ i, TM.cnt { s with activePeers := m } i = s.cnt i := by
  refine ⟨⟨hi.npos, hi.pieces, hi.loc, hi.act, hi.freq, hi.asg, Map.wf_perm hi.wf hp, ?_, ?_, ?_, hi.weight, hi.known⟩, ?_, ?_⟩
  · show m.length ≤ 10
    rw [← hp.length_eq]; exact hi.len
  · intro e he; exact hi.infos e (hp.mem_iff.mpr he)
  · intro k hk; exact hi.conn k ((hp.map _).mem_iff.mpr hk)
  · intro q; exact (Map.get?_perm hi.wf hp q).symm
  · intro i; exact (hp.countP_eq _).symm

/-- Invariants of all histories. -/
theorem run_inv {p : Profile} {s0 s : TM} {es : List Event} {n : Nat} (h : Run p s0 es s)
    (hi0 : Inv n s0) (ha : s0.activePeers = []) :
    Inv n s ∧ s.pieces = s0.pieces ∧ ∀ q, view n q es = (s.activePeers.get? q).map viewOf := by
  induction h with
  | nil => exact ⟨hi0, rfl, by intro q; rw [ha]; rfl⟩
  | @snoc s1 s2 es e hr hs ih =>
    obtain ⟨i1, i2, i3⟩ := ih
    have hview : ∀ q, view n q (es ++ [e]) = viewStep n q ((s1.activePeers.get? q).map viewOf) e := by
      intro q
      simp only [view, List.foldl_append, List.foldl_cons, List.foldl_nil]
      rw [show List.foldl (viewStep n q) none es = view n q es from rfl, i3]
    cases hs with
    | @peers o q hq =>
      refine ⟨⟨i1.npos, i1.pieces, i1.loc, i1.act, i1.freq, i1.asg, i1.wf, i1.len, i1.infos, i1.conn, i1.weight,
        Peers.step_wf hq i1.known⟩, i2, ?_⟩
      intro q'; rw [hview]; rfl
    | @reorder m hp =>
      obtain ⟨r1, r2, r3⟩ := reorder_inv i1 hp
      refine ⟨r1, i2, ?_⟩
      intro q; rw [hview]
      show (s1.activePeers.get? q).map viewOf = (Map.get? m q).map viewOf
      rw [r2]
    | @tick _ batch _ ht =>
      have e := tick_effect i1 ht
      refine ⟨e.inv, e.pieces.trans i2, ?_⟩
      intro q; rw [hview, e.views]; rfl
    | @start k peer idx hash sent s' acc hk hsel hst =>
      obtain ⟨e1, e2⟩ := start_spec i1 hk hsel hst
      refine ⟨e1, e2.pieces.trans i2, ?_⟩
      intro q; rw [hview, e2.views]; rfl
    | @nothing k hk hsel =>
      have := i1.weight
      refine ⟨⟨i1.npos, i1.pieces, i1.loc, i1.act, i1.freq, i1.asg, i1.wf, i1.len, i1.infos, i1.conn,
        by show s1.activePieces.weight + 0 ≤ 9; omega, i1.known⟩, i2, ?_⟩
      intro q; rw [hview]; rfl
    | @msg peer m _ _ hm =>
      obtain ⟨e1, e2, e3, e4⟩ := handle_effect i1 peer m hm
      refine ⟨e1, e2.2.trans i2, ?_⟩
      intro q
      rw [hview, e4]
      simp only [viewStep]
      by_cases hq : peer = q
      · simp [hq]
      · simp only [hq, if_false]
        rw [if_neg (fun h => hq h.symm)]

theorem handle_slots {p : Profile} {s s' : TM} {peer : Peer} {m : ConMessageType} (hm : s.handleCommand p peer m = .ok s') :
    s'.slots = s.slots ∧ s'.connection = s.connection := by
  cases m <;> simp only [TM.handleCommand] at hm
  all_goals first
    | (cases hm; exact ⟨rfl, rfl⟩)
    | (cases hm; done)
    | (simp only [TM.markPeerAsInactive] at hm
       split at hm
       · cases hm; exact ⟨rfl, rfl⟩
       · obtain ⟨_, _, hm⟩ := Res.bind_eq_ok.mp hm
         obtain ⟨_, _, hm⟩ := Res.bind_eq_ok.mp hm
         cases hm; exact ⟨rfl, rfl⟩)
    | (simp only [TM.handleHave] at hm
       split at hm
       · cases hm; exact ⟨rfl, rfl⟩
       · obtain ⟨⟨_, _⟩, _, hm⟩ := Res.bind_eq_ok.mp hm
         split at hm
         · cases hm; exact ⟨rfl, rfl⟩
         · obtain ⟨_, _, hm⟩ := Res.bind_eq_ok.mp hm
           obtain ⟨_, _, hm⟩ := Res.bind_eq_ok.mp hm
           cases hm; exact ⟨rfl, rfl⟩)
    | (simp only [TM.acceptBitfield] at hm
       split at hm
       · cases hm; exact ⟨rfl, rfl⟩
       · split at hm
         · cases hm; exact ⟨rfl, rfl⟩
         · split at hm
           · obtain ⟨_, _, hm⟩ := Res.bind_eq_ok.mp hm
             obtain ⟨_, _, hm⟩ := Res.bind_eq_ok.mp hm
             cases hm; exact ⟨rfl, rfl⟩
           · cases hm; exact ⟨rfl, rfl⟩
           · cases hm)

theorem noRejoin_prefix {n : Nat} {es : List Event} {e : Event} (h : NoRejoin n (es ++ [e])) : NoRejoin n es := by
  intro es1 b es2 he
  exact h es1 b (es2 ++ [e]) (by rw [he]; simp)

/-- The counters in histories without overflow. -/
theorem run_counters {p : Profile} {s0 s : TM} {es : List Event} {n : Nat} (h : Run p s0 es s)
    (hi0 : Inv n s0) (ha : s0.activePeers = []) (hf0 : s0.frequencyMap = List.replicate n 0)
    (hmode : p = .debug ∨ NoRejoin n es) :
    Sound n p s ∧ (NoRejoin n es → ∀ i < n, s.frequencyMap.getD i 0 = s.cnt i) := by
  have hsm : ∀ {s : TM}, Inv n s → (∀ i < n, s.frequencyMap.getD i 0 = s.cnt i) →
      ∀ i, s.frequencyMap.getD i 0 < 65535 := by
    intro s hi h i
    by_cases hlt : i < n
    · rw [h i hlt]
      have := Map.count_le_length (fun x : PeerInfo => bitAt x.haves.data i) s.activePeers
      have := hi.len
      simp only [cnt]; omega
    · simp only [List.getD]
      rw [List.getElem?_eq_none (by rw [hi.freq]; omega)]; simp
  suffices hh : (∀ i < n, s.cnt i ≤ s.frequencyMap.getD i 0) ∧
      (NoRejoin n es → ∀ i < n, s.frequencyMap.getD i 0 = s.cnt i) from
    ⟨⟨hmode.imp id (fun hn => hsm (run_inv h hi0 ha).1 (hh.2 hn)), hh.1⟩, hh.2⟩
  induction h with
  | nil =>
    refine ⟨?_, ?_⟩
    · intro i _; simp [cnt, ha, Map.count]
    · intro _ i hi; simp [cnt, ha, Map.count, hf0, List.getD, List.getElem?_replicate, hi]
  | @snoc s1 s2 es e hr hs ih =>
    obtain ⟨i4, i5⟩ := ih (hmode.imp id noRejoin_prefix)
    obtain ⟨i1, _, i3⟩ := run_inv hr hi0 ha
    cases hs with
    | @peers o q hq => exact ⟨i4, fun h => i5 (noRejoin_prefix h)⟩
    | @reorder m hp =>
      obtain ⟨r1, r2, r3⟩ := reorder_inv i1 hp
      refine ⟨?_, ?_⟩
      · intro i hlt; rw [r3]; exact i4 i hlt
      · intro h i hlt; rw [r3]; exact i5 (noRejoin_prefix h) i hlt
    | @start k peer idx hash sent s' acc hk hsel hst =>
      obtain ⟨_, e2⟩ := start_spec i1 hk hsel hst
      refine ⟨?_, ?_⟩
      · intro i hlt; rw [e2.cnt]; exact Nat.le_trans (i4 i hlt) (Nat.le_of_eq (by rw [e2.freq]))
      · intro h i hlt; rw [e2.cnt]; exact Eq.trans (by rw [e2.freq]) (i5 (noRejoin_prefix h) i hlt)
    | nothing => exact ⟨i4, fun h => i5 (noRejoin_prefix h)⟩
    | @tick _ batch _ ht =>
      have e := tick_effect i1 ht
      refine ⟨?_, ?_⟩
      · intro i hlt; rw [e.freq]; exact Nat.le_trans (e.cnt_le i) (i4 i hlt)
      · intro h i hlt
        rw [e.freq, e.cnt_eq ?_ i]
        · exact i5 (noRejoin_prefix h) i hlt
        · intro q hq
          have := h es batch [] rfl q hq
          rw [i3] at this
          simpa using this
    | @msg peer m _ _ hm =>
      have hsound : Sound n p s1 := ⟨hmode.imp id (fun h => hsm i1 (i5 (noRejoin_prefix h))), i4⟩
      obtain ⟨e1, e2, e3, e4⟩ := handle_effect i1 peer m hm
      refine ⟨?_, ?_⟩
      · intro i hlt
        have := e3 hsound i hlt
        have := i4 i hlt
        omega
      · intro h i hlt
        have := e3 hsound i hlt
        have := i5 (noRejoin_prefix h) i hlt
        omega

end TM

end Nargun
