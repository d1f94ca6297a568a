import Verif.Spec.FileCache

/-! # C56: the cache of open files -/

namespace Nargun

open Spec

theorem weight_eq (tr tw : Nat) (e : CacheEntry) : e.weightedElapsed tr tw = idleAt tr tw e := by
  obtain ⟨r, w⟩ := e
  cases r <;> cases w <;> simp [CacheEntry.weightedElapsed, idleAt, Nat.mul_comm]

theorem maxByKey_none {α} (key : α → Nat) (xs : List α) : maxByKey key xs = none ↔ xs = [] := by
  cases xs with
  | nil => simp [maxByKey]
  | cons x xs =>
    simp only [maxByKey, reduceCtorEq, iff_false]
    split
    · simp
    · split <;> simp

theorem maxByKey_some {α} (key : α → Nat) (xs : List α) (x : α) (h : maxByKey key xs = some x) :
    x ∈ xs ∧ ∀ y ∈ xs, key y ≤ key x := by
  induction xs generalizing x with
  | nil => simp [maxByKey] at h
  | cons a xs ih =>
    simp only [maxByKey] at h
    cases hm : maxByKey key xs with
    | none =>
      rw [hm] at h
      cases h
      rw [maxByKey_none] at hm
      subst hm
      simp
    | some y =>
      rw [hm] at h
      obtain ⟨h1, h2⟩ := ih y hm
      simp only at h
      split at h
      · cases h
        refine ⟨by simp, fun z hz => ?_⟩
        rcases List.mem_cons.mp hz with rfl | hz
        · exact Nat.le_refl _
        · have := h2 z hz; omega
      · cases h
        refine ⟨by simp [h1], fun z hz => ?_⟩
        rcases List.mem_cons.mp hz with rfl | hz
        · omega
        · exact h2 z hz

theorem length_erase_of_mem {κ α} [DecidableEq κ] (m : Map κ α) (hm : m.WF) (k : κ) (hk : k ∈ m.keys) :
    (m.erase k).length + 1 = m.length := by
  induction m with
  | nil => simp [Map.keys] at hk
  | cons e m ih =>
    have hwf : Map.WF m := (List.nodup_cons.mp hm).2
    have hne : e.1 ∉ Map.keys m := (List.nodup_cons.mp hm).1
    by_cases he : e.1 = k
    · have herase : Map.erase (e :: m) k = m := by
        unfold Map.erase
        rw [List.filter_cons_of_neg (by simp [he])]
        rw [List.filter_eq_self]
        intro a ha
        simp only [ne_eq, decide_eq_true_eq]
        rintro rfl
        exact hne (he ▸ List.mem_map_of_mem ha)
      rw [herase, List.length_cons]
    · have hk' : k ∈ Map.keys m := by
        simp only [Map.keys, List.map_cons, List.mem_cons] at hk
        rcases hk with h | h
        · exact absurd h.symm he
        · exact h
      have : Map.erase (e :: m) k = e :: Map.erase m k := by
        unfold Map.erase
        rw [List.filter_cons_of_pos (by simp [he])]
      rw [this, List.length_cons, List.length_cons, ih hwf hk']

/-- One request, in terms of the cache before and after. -/
theorem run_spec (openable : Bytes → Bool) (c : FileCache) (hwf : c.WF) (hlen : c.length ≤ 16) (op : CacheOp) :
    ((op.run openable c).1).WF ∧ ((op.run openable c).1).length ≤ 16 ∧
    ((op.run openable c).2 = .ok () ↔ openable op.path = true) ∧
    (openable op.path = true → ∃ e, (op.run openable c).1.get? op.path = some e ∧
      op.Stamped (c.get? op.path) e) ∧
    (openable op.path = false → (op.run openable c).1.get? op.path = c.get? op.path) ∧
    ((∀ q, q ≠ op.path → (op.run openable c).1.get? q = c.get? q) ∨
      (c.length = 16 ∧ c.get? op.path = none ∧ ∃ v ev, v ≠ op.path ∧ c.get? v = some ev ∧
        (op.run openable c).1.get? v = none ∧
        (∀ q e, c.get? q = some e → idleAt (op.clk.atRead q) (op.clk.atWrite q) e ≤ idleAt (op.clk.atRead v) (op.clk.atWrite v) ev) ∧
        (∀ q, q ≠ op.path → q ≠ v → (op.run openable c).1.get? q = c.get? q))) := by
  -- the cache after a possible eviction
  have hev : ∃ c1 : FileCache, c1 = (if c.length = FILE_CACHE_SIZE ∧ c.contains op.path = false then c.evict op.clk else c) ∧
      c1.WF ∧ c1.get? op.path = c.get? op.path ∧
      (c.get? op.path = none → c1.length < 16) ∧ c1.length ≤ 16 ∧
      ((∀ q, q ≠ op.path → c1.get? q = c.get? q) ∨
      (c.length = 16 ∧ c.get? op.path = none ∧ ∃ v ev, v ≠ op.path ∧ c.get? v = some ev ∧ c1.get? v = none ∧
        (∀ q e, c.get? q = some e → idleAt (op.clk.atRead q) (op.clk.atWrite q) e ≤ idleAt (op.clk.atRead v) (op.clk.atWrite v) ev) ∧
        (∀ q, q ≠ op.path → q ≠ v → c1.get? q = c.get? q))) := by
    refine ⟨_, rfl, ?_⟩
    have h16 : FILE_CACHE_SIZE = 16 := rfl
    rw [h16]
    by_cases hc : c.length = 16 ∧ c.contains op.path = false
    · rw [if_pos hc]
      have hnone : c.get? op.path = none := by
        have := hc.2
        unfold Map.contains at this
        cases h : c.get? op.path with
        | none => rfl
        | some e => rw [h] at this; cases this
      unfold FileCache.evict
      cases hm : maxByKey (fun e : Bytes × CacheEntry => e.2.weightedElapsed (op.clk.atRead e.1) (op.clk.atWrite e.1)) c with
      | none =>
        rw [maxByKey_none] at hm
        rw [hm] at hc
        simp at hc
      | some x =>
        obtain ⟨v, ev⟩ := x
        obtain ⟨h1, h2⟩ := maxByKey_some _ _ _ hm
        have hgv : c.get? v = some ev := Map.get?_of_mem hwf h1
        have hvk : v ∈ c.keys := List.mem_map_of_mem (f := (·.1)) h1
        have hvp : v ≠ op.path := by rintro rfl; rw [hgv] at hnone; cases hnone
        have hl := length_erase_of_mem c hwf v hvk
        simp only
        refine ⟨Map.wf_erase hwf v, ?_, fun _ => by omega, by omega, .inr ⟨hc.1, hnone, v, ev, hvp, hgv, ?_, ?_, ?_⟩⟩
        · rw [Map.get?_erase, if_neg (Ne.symm hvp)]
        · rw [Map.get?_erase, if_pos rfl]
        · intro q e hq
          have := h2 (q, e) (Map.mem_of_get? hq)
          rw [weight_eq, weight_eq] at this
          exact this
        · intro q _ hq
          rw [Map.get?_erase, if_neg hq]
    · rw [if_neg hc]
      refine ⟨hwf, rfl, ?_, hlen, .inl (fun _ _ => rfl)⟩
      intro hnone
      have : c.contains op.path = false := by unfold Map.contains; rw [hnone]; rfl
      have : ¬ c.length = 16 := fun h => hc ⟨h, this⟩
      omega
  obtain ⟨c1, hc1, w1, g1, l1, l1', e1⟩ := hev
  by_cases ho : openable op.path = true
  · -- opened: present afterwards
    obtain ⟨c2, hc2, w2, l2, g2, o2⟩ : ∃ c2 : FileCache,
        FileCache.getEntry openable op.clk op.path c = (c2, .ok ()) ∧ c2.WF ∧ c2.length ≤ 16 ∧
        c2.get? op.path = some ((c.get? op.path).getD ⟨none, none⟩) ∧ (∀ q, q ≠ op.path → c2.get? q = c1.get? q) := by
      unfold FileCache.getEntry
      simp only [ho, if_true, ← hc1]
      refine ⟨_, rfl, ?_⟩
      cases hg : c.get? op.path with
      | some e =>
        have : c1.contains op.path = true := by unfold Map.contains; rw [g1, hg]; rfl
        rw [if_pos this]
        exact ⟨w1, l1', by rw [g1, hg]; rfl, fun _ _ => rfl⟩
      | none =>
        have : c1.contains op.path = false := by unfold Map.contains; rw [g1, hg]; rfl
        rw [this]
        simp only [Bool.false_eq_true, if_false]
        have hnk : op.path ∉ c1.keys := Map.get?_eq_none.mp (by rw [g1, hg])
        refine ⟨Map.wf_insert w1 _ _, ?_, by rw [Map.get?_insert, if_pos rfl]; rfl, ?_⟩
        · rw [Map.insert_of_not_mem hnk, List.length_append, List.length_singleton]
          have := l1 hg
          omega
        · intro q hq
          rw [Map.get?_insert, if_neg hq]
    suffices fin : ∃ (g : CacheEntry → CacheEntry), (op.run openable c) = (c2.modify op.path g, .ok ()) ∧
        op.Stamped (c.get? op.path) (g ((c.get? op.path).getD ⟨none, none⟩)) by
      obtain ⟨g, hrun, hg⟩ := fin
      rw [hrun]
      refine ⟨Map.wf_modify w2 _ _, by rw [Map.modify, List.length_map]; exact l2, ⟨fun _ => ho, fun _ => rfl⟩,
        fun _ => ⟨g ((c.get? op.path).getD ⟨none, none⟩), by rw [Map.get?_modify, if_pos rfl, g2]; rfl, hg⟩,
        (fun h => by rw [ho] at h; cases h), ?_⟩
      have hmod : ∀ q, q ≠ op.path → (c2.modify op.path g).get? q = c1.get? q := by
        intro q hq
        rw [Map.get?_modify, if_neg hq, o2 q hq]
      rcases e1 with e1 | ⟨a1, a2, v, ev, a3, a4, a5, a6, a7⟩
      · exact .inl (fun q hq => (hmod q hq).trans (e1 q hq))
      · exact .inr ⟨a1, a2, v, ev, a3, a4, (hmod v a3).trans a5, a6, fun q hq hv => (hmod q hq).trans (a7 q hq hv)⟩
    cases op with
    | read p n =>
      refine ⟨fun e => { e with read := some n.stamp }, ?_, ?_⟩
      · show FileCache.getRead openable n p c = _
        unfold FileCache.getRead
        rw [show FileCache.getEntry openable n p c = (c2, .ok ()) from hc2]
        rfl
      · simp only [CacheOp.Stamped]
        cases c.get? (CacheOp.read p n).path <;> simp
    | write p n =>
      refine ⟨fun e => { e with write := some n.stamp }, ?_, ?_⟩
      · show FileCache.getWrite openable n p c = _
        unfold FileCache.getWrite
        rw [show FileCache.getEntry openable n p c = (c2, .ok ()) from hc2]
        rfl
      · simp only [CacheOp.Stamped]
        cases c.get? (CacheOp.write p n).path <;> simp
  · have ho' : openable op.path = false := by simpa using ho
    have he : FileCache.getEntry openable op.clk op.path c = (c1, .err) := by
      unfold FileCache.getEntry
      simp only [ho', ← hc1, Bool.false_eq_true, if_false]
    have hrun : op.run openable c = (c1, .err) := by
      cases op with
      | read p n =>
        show FileCache.getRead openable n p c = _
        unfold FileCache.getRead
        rw [show FileCache.getEntry openable n p c = (c1, .err) from he]
      | write p n =>
        show FileCache.getWrite openable n p c = _
        unfold FileCache.getWrite
        rw [show FileCache.getEntry openable n p c = (c1, .err) from he]
    rw [hrun]
    refine ⟨w1, l1', ?_, (fun h => by rw [ho'] at h; cases h), fun _ => g1, e1⟩
    simp [ho']

/-- The invariant of all reachable caches. -/
theorem cache_inv (c : FileCache) (h : CacheReach c) : c.WF ∧ c.length ≤ 16 := by
  induction h with
  | new => exact ⟨List.nodup_nil, by simp⟩
  | op o op _ ih =>
    obtain ⟨h1, h2, _⟩ := run_spec o _ ih.1 ih.2 op
    exact ⟨h1, h2⟩
  | rehash _ hp ih => exact ⟨Map.wf_perm ih.1 hp, by rw [← hp.length_eq]; exact ih.2⟩

/-- C56: after every history of requests there are at most 16 open files, no file twice. -/
theorem C56_bounded (c : FileCache) (h : CacheReach c) : c.length ≤ 16 ∧ (c.map (·.1)).Nodup :=
  ⟨(cache_inv c h).2, (cache_inv c h).1⟩

/-- C56: a request succeeds iff the file can be opened; then the file is in the cache, and the time of the request is
recorded as its last read or write. -/
theorem C56_present (c : FileCache) (h : CacheReach c) (openable : Bytes → Bool) (op : CacheOp) :
    ((op.run openable c).2 = .ok () ↔ openable op.path = true) ∧
    ((op.run openable c).2 = .ok () → ∃ e, (op.run openable c).1.get? op.path = some e ∧
      op.Stamped (c.get? op.path) e) := by
  obtain ⟨h1, h2⟩ := cache_inv c h
  obtain ⟨_, _, r1, r2, _, _⟩ := run_spec openable c h1 h2 op
  exact ⟨r1, fun hok => r2 (r1.mp hok)⟩

/-- C56: a request changes no other file's entry, unless the cache is full and the file is not in it: then at most one
other file leaves the cache, one that no other file is idler than, each measured when the eviction looks at it. -/
theorem C56_evicts_idlest (c : FileCache) (h : CacheReach c) (openable : Bytes → Bool) (op : CacheOp) :
    (∀ q, q ≠ op.path → (op.run openable c).1.get? q = c.get? q) ∨
    (c.length = 16 ∧ c.get? op.path = none ∧ ∃ v ev, v ≠ op.path ∧ c.get? v = some ev ∧
      (op.run openable c).1.get? v = none ∧
      (∀ q e, c.get? q = some e → idleAt (op.clk.atRead q) (op.clk.atWrite q) e ≤ idleAt (op.clk.atRead v) (op.clk.atWrite v) ev) ∧
      (∀ q, q ≠ op.path → q ≠ v → (op.run openable c).1.get? q = c.get? q)) := by
  obtain ⟨h1, h2⟩ := cache_inv c h
  exact (run_spec openable c h1 h2 op).2.2.2.2.2

theorem idleAt_mono {tr tw tr' tw' : Nat} (h1 : tr ≤ tr') (h2 : tw ≤ tw') (e : CacheEntry) :
    idleAt tr tw e ≤ idleAt tr' tw' e := by
  obtain ⟨r, w⟩ := e
  cases r <;> cases w <;> simp only [idleAt, Option.map_some, Option.map_none] <;> omega

theorem idleAt_add (t d : Nat) (e : CacheEntry) : idleAt (t + d) (t + d) e ≤ idleAt t t e + 3 * d := by
  obtain ⟨r, w⟩ := e
  cases r <;> cases w <;> simp only [idleAt, Option.map_some, Option.map_none] <;> omega

/-- C56: if the eviction looks at all files between the times `t` and `t + d`, no file that stays was at the time `t`
idler than the one that leaves by more than `3 d`; in particular the idlest leaves if the clock stands still. -/
theorem C56_nearly_idlest (c : FileCache) (h : CacheReach c) (openable : Bytes → Bool) (op : CacheOp) (t d : Nat)
    (hr : ∀ q, t ≤ op.clk.atRead q ∧ op.clk.atRead q ≤ t + d) (hw : ∀ q, t ≤ op.clk.atWrite q ∧ op.clk.atWrite q ≤ t + d)
    (v : Bytes) (ev : CacheEntry) (hv : c.get? v = some ev) (hne : v ≠ op.path)
    (hgone : (op.run openable c).1.get? v = none) (q : Bytes) (e : CacheEntry) (hq : c.get? q = some e) :
    idle t e ≤ idle t ev + 3 * d := by
  rcases C56_evicts_idlest c h openable op with h1 | ⟨_, _, v', ev', _, hv', _, hall, hoth⟩
  · rw [h1 v hne, hv] at hgone; cases hgone
  · have : v = v' := by
      by_cases hvv : v = v'
      · exact hvv
      · rw [hoth v hne hvv, hv] at hgone; cases hgone
    subst this
    rw [hv] at hv'; cases hv'
    have h1 := hall q e hq
    have h2 := idleAt_mono (hr q).1 (hw q).1 e
    have h3 := idleAt_mono (hr v).2 (hw v).2 ev
    have h4 := idleAt_add t d ev
    unfold idle
    omega

/-- C56: a failed request leaves the file's own entry as it was. -/
theorem C56_failed (c : FileCache) (h : CacheReach c) (openable : Bytes → Bool) (op : CacheOp)
    (ho : openable op.path = false) :
    (op.run openable c).2 ≠ .ok () ∧ (op.run openable c).1.get? op.path = c.get? op.path := by
  obtain ⟨h1, h2⟩ := cache_inv c h
  obtain ⟨_, _, r1, _, r2, _⟩ := run_spec openable c h1 h2 op
  exact ⟨fun hok => (by rw [r1.mp hok] at ho; cases ho), r2 ho⟩

/-- C56: every open file has been read or written, so its idle time is a real one. -/
theorem C56_used (c : FileCache) (h : CacheReach c) (q : Bytes) (e : CacheEntry) (hq : c.get? q = some e) :
    e.read.isSome ∨ e.write.isSome := by
  induction h generalizing q e with
  | new => cases hq
  | @op c o op hr ih =>
    obtain ⟨h1, h2⟩ := cache_inv c hr
    obtain ⟨_, _, _, r2, r3, r4⟩ := run_spec o c h1 h2 op
    by_cases hp : q = op.path
    · subst hp
      by_cases ho : o op.path = true
      · obtain ⟨e', he', hm⟩ := r2 ho
        rw [hq] at he'
        cases he'
        cases op with
        | read p n => left; rw [hm.1]; rfl
        | write p n => right; rw [hm.1]; rfl
      · exact ih _ _ (by rw [← r3 (by simpa using ho)]; exact hq)
    · rcases r4 with r4 | ⟨_, _, v, ev, _, _, hv, _, hoth⟩
      · exact ih _ _ (by rw [← r4 q hp]; exact hq)
      · by_cases hqv : q = v
        · rw [hqv, hv] at hq; cases hq
        · exact ih _ _ (by rw [← hoth q hp hqv]; exact hq)
  | rehash hr hp ih =>
    exact ih _ _ (by rw [Map.get?_perm (cache_inv _ hr).1 hp]; exact hq)

/-- A cache filled with sixteen files, `[0]` to `[15]`, read at the times 0 to 15: a seventeenth request evicts the
first. -/
def demoCache : FileCache :=
  (List.range 16).foldl (fun c i => ((CacheOp.read [BitVec.ofNat 8 i] ⟨fun _ => i, fun _ => i, i⟩).run (fun _ => true) c).1) []

theorem demoCache_reach : CacheReach demoCache := by
  unfold demoCache
  generalize List.range 16 = l
  suffices ∀ c, CacheReach c → CacheReach
      (l.foldl (fun c i => ((CacheOp.read [BitVec.ofNat 8 i] ⟨fun _ => i, fun _ => i, i⟩).run (fun _ => true) c).1) c) from this [] .new
  induction l with
  | nil => exact fun c h => h
  | cons i l ih => exact fun c h => ih _ (.op _ _ h)

example : demoCache.length = 16 ∧ demoCache.get? [99#8] = none ∧
    ((CacheOp.read [99#8] ⟨fun _ => 20, fun _ => 21, 22⟩).run (fun _ => true) demoCache).1.get? [0#8] = none ∧
    ((CacheOp.read [99#8] ⟨fun _ => 20, fun _ => 21, 22⟩).run (fun _ => true) demoCache).1.length = 16 := by decide

/-- The hypotheses of `C56_nearly_idlest`, `C56_used` and `C56_evicts_idlest`: the eviction looks at the sixteen files
between the times 20 and 21, and the first leaves. -/
example : CacheReach demoCache ∧
    (∀ q : Bytes, 20 ≤ (CacheOp.read [99#8] ⟨fun _ => 20, fun _ => 21, 22⟩).clk.atRead q ∧
      (CacheOp.read [99#8] ⟨fun _ => 20, fun _ => 21, 22⟩).clk.atRead q ≤ 20 + 1) ∧
    (∀ q : Bytes, 20 ≤ (CacheOp.read [99#8] ⟨fun _ => 20, fun _ => 21, 22⟩).clk.atWrite q ∧
      (CacheOp.read [99#8] ⟨fun _ => 20, fun _ => 21, 22⟩).clk.atWrite q ≤ 20 + 1) ∧
    demoCache.get? [0#8] = some ⟨some 0, none⟩ ∧ demoCache.get? [7#8] = some ⟨some 7, none⟩ ∧
    ((CacheOp.read [99#8] ⟨fun _ => 20, fun _ => 21, 22⟩).run (fun _ => true) demoCache).1.get? [0#8] = none :=
  ⟨demoCache_reach, fun _ => ⟨by simp [CacheOp.clk], by simp [CacheOp.clk]⟩, fun _ => ⟨by simp [CacheOp.clk], by simp [CacheOp.clk]⟩, by decide, by decide, by decide⟩

/-- The hypotheses of `C56_failed`, with a file that is in the cache: it can no longer be opened. -/
example : CacheReach demoCache ∧ demoCache.get? [7#8] ≠ none ∧
    (fun p : Bytes => decide (p ≠ [7#8])) (CacheOp.read [7#8] ⟨fun _ => 20, fun _ => 21, 22⟩).path = false :=
  ⟨demoCache_reach, by decide, by decide⟩

end Nargun
