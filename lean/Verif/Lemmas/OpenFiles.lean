import Mathlib.Data.List.Nodup
import Mathlib.Data.List.Perm.Subperm
import Verif.Model.OpenFiles
import Verif.Lemmas.Storage
import Verif.Lemmas.Fs

/-! # Open files: waiting, and as many files as the cache holds -/

namespace Nargun

open Spec

/-- What the writes do to one file. -/
def Device.applied (dev : Device) (ws : List Handed) (p : Bytes) (c : Bytes) : Bytes :=
  (ws.filter fun w => w.path = p).foldl (fun c w => writeAt c w.pos (dev.kept w)) c

theorem get?_performs (dev : Device) (ws : List Handed) (d : Disk) (p : Bytes) :
    (ws.foldl dev.perform d).get? p = (d.get? p).map (dev.applied ws p) := by
  induction ws generalizing d with
  | nil => cases h : Map.get? d p <;> simp [Device.applied, h]
  | cons w ws ih =>
    rw [List.foldl_cons, ih]
    unfold Device.perform
    rw [Map.get?_modify]
    by_cases h : p = w.path
    · subst h
      rw [if_pos rfl]
      cases Map.get? d w.path <;> simp [Device.applied]
    · rw [if_neg h]
      have : ¬ w.path = p := fun hc => h hc.symm
      cases Map.get? d p <;> simp [Device.applied, this]

theorem applied_none (dev : Device) (ws : List Handed) (p : Bytes) (h : ∀ w ∈ ws, w.path ≠ p) (c : Bytes) :
    dev.applied ws p c = c := by
  unfold Device.applied
  rw [List.filter_eq_nil_iff.mpr (by intro w hw; simpa using h w hw)]
  rfl

theorem applied_append (dev : Device) (a b : List Handed) (p : Bytes) (c : Bytes) :
    dev.applied (a ++ b) p c = dev.applied b p (dev.applied a p c) := by
  unfold Device.applied
  rw [List.filter_append, List.foldl_append]

theorem applied_cons (dev : Device) (w : Handed) (b : List Handed) (p : Bytes) (c : Bytes) :
    dev.applied (w :: b) p c = dev.applied b p (dev.applied [w] p c) := applied_append dev [w] b p c

/-- Writes to different files may be performed in any order. -/
theorem applied_split (dev : Device) (ws : List Handed) (hn : (ws.map (·.path)).Nodup) (q : Handed → Bool) (p : Bytes)
    (c : Bytes) : dev.applied (ws.filter fun w => !q w) p (dev.applied (ws.filter q) p c) = dev.applied ws p c := by
  induction ws generalizing c with
  | nil => rfl
  | cons w ws ih =>
    simp only [List.map_cons, List.nodup_cons] at hn
    by_cases hp : w.path = p
    · have hnone : ∀ w' ∈ ws, w'.path ≠ p := by
        intro w' hw' hc
        exact hn.1 (List.mem_map.mpr ⟨w', hw', by rw [hc, hp]⟩)
      rw [applied_cons dev w ws, applied_none dev ws p hnone]
      by_cases hq : q w = true
      · rw [List.filter_cons_of_neg (by simp [hq]), List.filter_cons_of_pos hq,
          applied_none dev _ p (fun w' hw' => hnone w' (List.mem_of_mem_filter hw')), applied_cons,
          applied_none dev _ p (fun w' hw' => hnone w' (List.mem_of_mem_filter hw'))]
      · rw [List.filter_cons_of_pos (by simpa using hq), List.filter_cons_of_neg hq, applied_cons,
          applied_none dev _ p (fun w' hw' => hnone w' (List.mem_of_mem_filter hw')),
          applied_none dev _ p (fun w' hw' => hnone w' (List.mem_of_mem_filter hw'))]
    · have h1 : ∀ c, dev.applied [w] p c = c := fun c => applied_none dev _ p (by simpa using hp) c
      rw [applied_cons dev w ws, h1]
      by_cases hq : q w = true
      · rw [List.filter_cons_of_neg (by simp [hq]), List.filter_cons_of_pos hq, applied_cons dev w, h1, ih hn.2]
      · rw [List.filter_cons_of_pos (by simpa using hq), List.filter_cons_of_neg hq, applied_cons dev w, h1, ih hn.2]

/-- A handle has handed over one write at most, and knows it; the files that are open are among `ps`. -/
structure Orderly (ps : List Bytes) (s : OpenFiles) : Prop where
  wf : s.cache.WF
  keys : ∀ p ∈ s.cache.keys, p ∈ ps
  known : ∀ w ∈ s.handed, s.unreported.get? w.path = some w.num
  paths : (s.handed.map (·.path)).Nodup
  nums : (s.handed.map (·.num)).Nodup
  old : ∀ w ∈ s.handed, w.num < s.writes

theorem Orderly.same {ps : List Bytes} {s : OpenFiles} (h : Orderly ps s) {w w' : Handed} (hw : w ∈ s.handed)
    (hw' : w' ∈ s.handed) (hp : w.num = w'.num) : w = w' :=
  List.inj_on_of_nodup_map h.nums hw hw' hp

theorem Orderly.thin {ps : List Bytes} {s s' : OpenFiles} (h : Orderly ps s) (hc : s'.cache = s.cache)
    (hu : s'.unreported = s.unreported) (hw : s'.writes = s.writes) (q : Handed → Bool)
    (hh : s'.handed = s.handed.filter q) : Orderly ps s' := by
  refine ⟨by rw [hc]; exact h.wf, by rw [hc]; exact h.keys, ?_, ?_, ?_, ?_⟩
  · rw [hh, hu]
    exact fun w hw => h.known w (List.mem_of_mem_filter hw)
  · rw [hh]; exact h.paths.sublist (List.Sublist.map _ List.filter_sublist)
  · rw [hh]; exact h.nums.sublist (List.Sublist.map _ List.filter_sublist)
  · rw [hh, hw]
    exact fun w hw => h.old w (List.mem_of_mem_filter hw)

theorem settled_split (dev : Device) (s : OpenFiles) (hn : (s.handed.map (·.path)).Nodup) (q : Handed → Bool) (p : Bytes) :
    ((s.handed.filter fun w => !q w).foldl dev.perform ((s.handed.filter q).foldl dev.perform s.disk)).get? p =
      (s.settled dev).get? p := by
  unfold OpenFiles.settled
  rw [get?_performs, get?_performs, get?_performs, Option.map_map]
  congr 1
  funext c
  exact applied_split dev s.handed hn q p c

theorem Orderly.tick {ps : List Bytes} {s : OpenFiles} (dev : Device) (h : Orderly ps s) :
    Orderly ps (s.tick dev) ∧ ∀ p, ((s.tick dev).settled dev).get? p = (s.settled dev).get? p := by
  refine ⟨h.thin rfl rfl rfl _ rfl, fun p => ?_⟩
  have := settled_split dev s h.paths (fun w => w.due ≤ s.calls + 1) p
  simp only [← decide_not] at this
  exact this

theorem Orderly.await {ps : List Bytes} {s : OpenFiles} (dev : Device) (p : Bytes) (h : Orderly ps s) :
    Orderly ps (s.await dev p) ∧ (∀ q, ((s.await dev p).settled dev).get? q = (s.settled dev).get? q) ∧
    (∀ w ∈ (s.await dev p).handed, w.path ≠ p) ∧ (s.await dev p).cache = s.cache ∧
    (s.await dev p).unreported = s.unreported ∧ (s.await dev p).writes = s.writes := by
  unfold OpenFiles.await
  cases hu : s.unreported.get? p with
  | none =>
    refine ⟨h, fun _ => rfl, fun w hw hc => ?_, rfl, rfl, rfl⟩
    have := h.known w hw
    rw [hc, hu] at this
    cases this
  | some n =>
    dsimp only
    refine ⟨h.thin rfl rfl rfl _ rfl, fun q => ?_, fun w hw hc => ?_, rfl, rfl, rfl⟩
    · have := settled_split dev s h.paths (fun w => w.num = n) q
      simp only [← decide_not] at this
      exact this
    · rw [List.mem_filter] at hw
      have := h.known w hw.1
      rw [hc, hu] at this
      have hn := hw.2
      simp only [ne_eq, decide_not, Bool.not_eq_true', decide_eq_false_iff_not] at hn
      exact hn (Option.some.inj this).symm

/-- As many files as the cache holds: it closes none. -/
theorem no_evict (o : Bytes → Bool) (now : CacheClock) (ps : List Bytes) (hlen : ps.length ≤ 16) (c : FileCache) (hwf : c.WF)
    (hk : ∀ p ∈ c.keys, p ∈ ps) (p : Bytes) (hp : p ∈ ps) :
    (c.getWrite o now p).2 = (if o p then .ok () else .err) ∧ (c.getWrite o now p).1.WF ∧
    (∀ q, q ∈ c.keys → q ∈ (c.getWrite o now p).1.keys) ∧ (∀ q ∈ (c.getWrite o now p).1.keys, q ∈ ps) := by
  have hno : ¬ (c.length = FILE_CACHE_SIZE ∧ c.contains p = false) := by
    rintro ⟨h1, h2⟩
    have hnot : p ∉ c.keys := by
      intro hc
      rw [Map.contains_iff.mpr hc] at h2
      cases h2
    have hnd : (p :: c.keys).Nodup := List.nodup_cons.mpr ⟨hnot, hwf⟩
    have hsub : (p :: c.keys) ⊆ ps := by
      intro q hq
      rcases List.mem_cons.mp hq with rfl | hq
      · exact hp
      · exact hk q hq
    have := (List.subperm_of_subset hnd hsub).length_le
    simp only [List.length_cons, Map.keys, List.length_map] at this
    unfold FILE_CACHE_SIZE at h1
    omega
  unfold FileCache.getWrite FileCache.getEntry
  dsimp only
  rw [if_neg hno]
  by_cases ho : o p = true
  · rw [if_pos ho, if_pos ho]
    by_cases hc : c.contains p = true
    · rw [if_pos hc]
      dsimp only
      exact ⟨rfl, Map.wf_modify hwf _ _, by simp, by simpa using hk⟩
    · rw [if_neg hc]
      dsimp only
      refine ⟨rfl, Map.wf_modify (Map.wf_insert hwf _ _) _ _, ?_, ?_⟩
      · intro q hq
        rw [Map.keys_modify, Map.mem_keys_insert]
        exact .inr hq
      · intro q hq
        rw [Map.keys_modify, Map.mem_keys_insert] at hq
        rcases hq with rfl | hq
        · exact hp
        · exact hk q hq
  · rw [if_neg ho, if_neg ho]
    exact ⟨rfl, hwf, fun _ h => h, hk⟩

/-- The last write to a file failed, and this has not been reported. -/
def Failed (dev : Device) (s : OpenFiles) (p : Bytes) : Bool :=
  (s.unreported.get? p).any fun n => (dev.fault n).isSome

theorem get?_settled (dev : Device) (s : OpenFiles) (p : Bytes) :
    (s.settled dev).get? p = (s.disk.get? p).map (dev.applied s.handed p) := get?_performs dev s.handed s.disk p

theorem settled_here (dev : Device) (s : OpenFiles) (p : Bytes) (h : ∀ w ∈ s.handed, w.path ≠ p) :
    (s.settled dev).get? p = s.disk.get? p := by
  rw [get?_settled]
  cases s.disk.get? p with
  | none => rfl
  | some x => rw [Option.map_some, applied_none dev _ p h]

/-- What `openFile` does when the cache has room for all files. -/
theorem openFile_step (dev : Device) (ps : List Bytes) (hlen : ps.length ≤ 16) (p : Bytes) (hp : p ∈ ps) (s : OpenFiles)
    (ho : Orderly ps s) :
    ∃ s', OpenFiles.openFile dev p s = (s', if dev.openable p then .ok () else .err) ∧ Orderly ps s' ∧
      s'.unreported = s.unreported ∧ s'.writes = s.writes ∧
      (dev.openable p = true → ∀ q, (s'.settled dev).get? q =
        if q = p then some (((s.settled dev).get? p).getD []) else (s.settled dev).get? q) ∧
      (dev.openable p = false → ∀ q, (s'.settled dev).get? q = (s.settled dev).get? q) := by
  obtain ⟨ht, hts⟩ := ho.tick dev
  obtain ⟨h1, h2, h3, h4⟩ := no_evict dev.openable (dev.clock (s.tick dev).calls) ps hlen (s.tick dev).cache ht.wf ht.keys p hp
  unfold OpenFiles.openFile
  dsimp only
  have hun : ((s.tick dev).unreported.filter fun e =>
      ((s.tick dev).cache.getWrite dev.openable (dev.clock (s.tick dev).calls) p).1.contains e.1 ||
        !(s.tick dev).cache.contains e.1) = (s.tick dev).unreported := by
    rw [List.filter_eq_self]
    intro e _
    by_cases hc : (s.tick dev).cache.contains e.1 = true
    · rw [Map.contains_iff.mpr (h3 _ (Map.contains_iff.mp hc))]; rfl
    · rw [Bool.not_eq_true] at hc; rw [hc]; simp
  rw [hun, h1]
  generalize hc : ((s.tick dev).cache.getWrite dev.openable (dev.clock (s.tick dev).calls) p).1 = c at h2 h3 h4
  have hor : Orderly ps { s.tick dev with cache := c } := ⟨h2, h4, ht.known, ht.paths, ht.nums, ht.old⟩
  have hset : ∀ q, (OpenFiles.settled dev { s.tick dev with cache := c }).get? q = (s.settled dev).get? q := by
    intro q
    rw [← hts]; rfl
  by_cases hop : dev.openable p = true
  · rw [if_pos hop, hop]
    dsimp only
    obtain ⟨ha, has, han, hac, hau, haw⟩ := hor.await dev p
    generalize hs' : OpenFiles.await dev p { s.tick dev with cache := c } = s' at ha has han hac hau haw
    refine ⟨_, rfl, ⟨ha.wf, ha.keys, ha.known, ha.paths, ha.nums, ha.old⟩, hau, haw, fun _ q => ?_, fun hx => by cases hx⟩
    have hget : (s.settled dev).get? p = s'.disk.get? p := by
      rw [← hset, ← has, settled_here dev s' p han]
    rw [get?_settled]
    dsimp only
    unfold Map.contains
    cases hd : s'.disk.get? p with
    | some x =>
      rw [Option.isSome_some, if_pos rfl]
      by_cases hq : q = p
      · subst hq
        rw [if_pos rfl, hget, hd, Option.map_some, applied_none dev _ q han]; rfl
      · rw [if_neg hq, ← hset, ← has, get?_settled]
    | none =>
      rw [Option.isSome_none, if_neg (by simp), Map.get?_insert]
      by_cases hq : q = p
      · subst hq
        rw [if_pos rfl, if_pos rfl, hget, hd, Option.map_some, applied_none dev _ q han]; rfl
      · rw [if_neg hq, if_neg hq, ← hset, ← has, get?_settled]
  · rw [if_neg hop]
    refine ⟨_, rfl, hor, rfl, rfl, fun hx => absurd hx hop, fun _ q => hset q⟩

/-- A write is handed over when the one before has not failed. -/
theorem writeAll_step (dev : Device) (ps : List Bytes) (p : Bytes) (pos : Nat) (bs : Bytes) (hb : bs ≠ []) (s : OpenFiles)
    (ho : Orderly ps s) (hf : Failed dev s p = false) :
    ∃ s', OpenFiles.writeAll dev p pos bs s = (s', .ok ()) ∧ Orderly ps s' ∧ s'.writes = s.writes + 1 ∧
      s'.unreported = s.unreported.insert p s.writes ∧
      ∀ q, (s'.settled dev).get? q = if q = p then ((s.settled dev).get? p).map (fun c => writeAt c pos
        (match dev.fault s.writes with | none => bs | some n => bs.take n)) else (s.settled dev).get? q := by
  unfold OpenFiles.writeAll
  rw [if_neg hb]
  obtain ⟨ht, hts⟩ := ho.tick dev
  obtain ⟨ha, has, han, hac, hau, haw⟩ := ht.await dev p
  dsimp only
  generalize hs' : OpenFiles.await dev p (s.tick dev) = s' at ha has han hac hau haw
  have hw : s'.writes = s.writes := haw
  have hu : s'.unreported = s.unreported := hau
  rw [if_neg (by rw [hu]; unfold Failed at hf; rw [hf]; simp)]
  refine ⟨_, rfl, ⟨ha.wf, ha.keys, ?_, ?_, ?_, ?_⟩, by rw [hw], by rw [hw, hu], fun q => ?_⟩
  · intro w hw
    rw [Map.get?_insert]
    rcases List.mem_append.mp hw with hw | hw
    · rw [if_neg (han w hw)]
      exact ha.known w hw
    · rw [List.mem_singleton.mp hw, if_pos rfl]
  · rw [List.map_append, List.map_singleton, List.nodup_append]
    refine ⟨ha.paths, by simp, ?_⟩
    intro a hx b hb' hab
    obtain ⟨w, hw, rfl⟩ := List.mem_map.mp hx
    rw [List.mem_singleton.mp hb'] at hab
    exact han w hw hab
  · rw [List.map_append, List.map_singleton, List.nodup_append]
    refine ⟨ha.nums, by simp, ?_⟩
    intro a hx b hb' hab
    obtain ⟨w, hw, rfl⟩ := List.mem_map.mp hx
    rw [List.mem_singleton.mp hb'] at hab
    have := ha.old w hw
    dsimp only at hab
    omega
  · intro w hw
    rcases List.mem_append.mp hw with hw | hw
    · have := ha.old w hw
      dsimp only
      omega
    · rw [List.mem_singleton.mp hw]
      dsimp only
      omega
  · rw [get?_settled]
    dsimp only
    rw [← hts, ← has, ← hts q, ← has q, get?_settled, get?_settled]
    by_cases hq : q = p
    · subst hq
      rw [if_pos rfl, Option.map_map]
      congr 1
      funext x
      rw [applied_append]
      simp [Device.applied, Device.kept, hw]
      rfl
    · rw [if_neg hq]
      congr 1
      funext x
      rw [applied_append, applied_none dev [_] q (by simpa using fun hc => hq hc.symm)]

/-- A write is refused when the one before has failed; nothing is handed over. -/
theorem writeAll_refused (dev : Device) (ps : List Bytes) (p : Bytes) (pos : Nat) (bs : Bytes) (hb : bs ≠ []) (s : OpenFiles)
    (ho : Orderly ps s) (hf : Failed dev s p = true) :
    ∃ s', OpenFiles.writeAll dev p pos bs s = (s', .err) ∧ Orderly ps s' ∧ s'.writes = s.writes ∧
      s'.unreported = s.unreported.erase p ∧ ∀ q, (s'.settled dev).get? q = (s.settled dev).get? q := by
  unfold OpenFiles.writeAll
  rw [if_neg hb]
  obtain ⟨ht, hts⟩ := ho.tick dev
  obtain ⟨ha, has, han, hac, hau, haw⟩ := ht.await dev p
  dsimp only
  generalize hs' : OpenFiles.await dev p (s.tick dev) = s' at ha has han hac hau haw
  have hw : s'.writes = s.writes := haw
  have hu : s'.unreported = s.unreported := hau
  rw [if_pos (by rw [hu]; exact hf)]
  refine ⟨_, rfl, ⟨ha.wf, ha.keys, ?_, ha.paths, ha.nums, ha.old⟩, hw, by rw [hu], fun q => ?_⟩
  · intro w hw
    rw [Map.get?_erase, if_neg (han w hw)]
    exact ha.known w hw
  · rw [← hts, ← has]; rfl

/-- Reading sees all that was written. -/
theorem readExact_step (dev : Device) (ps : List Bytes) (p : Bytes) (pos n : Nat) (s : OpenFiles) (ho : Orderly ps s) :
    ∃ s', Orderly ps s' ∧ s'.writes = s.writes ∧ s'.unreported = s.unreported ∧
      (∀ q, (s'.settled dev).get? q = (s.settled dev).get? q) ∧
      OpenFiles.readExact dev p pos n s = (s', match (s.settled dev).get? p with
        | some c => if n = 0 ∨ pos + n ≤ c.length then .ok ((c.drop pos).take n) else .err
        | none => .err) := by
  unfold OpenFiles.readExact
  obtain ⟨ht, hts⟩ := ho.tick dev
  obtain ⟨ha, has, han, hac, hau, haw⟩ := ht.await dev p
  dsimp only
  generalize hs' : OpenFiles.await dev p (s.tick dev) = s' at ha has han hac hau haw
  refine ⟨s', ha, haw, hau, fun q => by rw [has, hts], ?_⟩
  rw [← hts, ← has, settled_here dev s' p han]
  cases s'.disk.get? p with
  | none => rfl
  | some x =>
    dsimp only
    split <;> rfl

/-- The files when all is written are those of `d`. -/
def Upholds (dev : Device) (ps : List Bytes) (s : OpenFiles) (d : Disk) : Prop :=
  Orderly ps s ∧ ∀ p, (s.settled dev).get? p = d.get? p

theorem handles_alike (dev : Device) (hf : ∀ n, dev.fault n = none) (ps : List Bytes) (hlen : ps.length ≤ 16) :
    Alike (Upholds dev ps) (· ∈ ps) dev.files dev.openable := by
  refine ⟨?_, ?_, ?_⟩
  · rintro p hp s d ⟨ho, hd⟩
    obtain ⟨s', he, ho', -, -, h1, h2⟩ := openFile_step dev ps hlen p hp s ho
    show Upholds dev ps (OpenFiles.openFile dev p s).1 _ ∧ (OpenFiles.openFile dev p s).2 = _
    rw [he]
    unfold Nargun.openFile
    by_cases hop : dev.openable p = true
    · rw [if_pos hop, if_pos hop]
      have h1 := h1 hop
      rw [hd] at h1
      cases hdp : d.get? p with
      | some x =>
        rw [hdp] at h1
        refine ⟨⟨ho', fun q => ?_⟩, rfl⟩
        rw [h1]
        split
        · rename_i hq; rw [hq, hdp]; rfl
        · exact hd q
      | none =>
        rw [hdp] at h1
        refine ⟨⟨ho', fun q => ?_⟩, rfl⟩
        rw [h1, Map.get?_insert]
        split
        · rfl
        · exact hd q
    · rw [if_neg hop, if_neg hop]
      exact ⟨⟨ho', fun q => by rw [h2 (by simpa using hop), hd]⟩, rfl⟩
  · rintro p pos bs hp s d ⟨ho, hd⟩
    show Upholds dev ps (OpenFiles.writeAll dev p pos bs s).1 _ ∧ (OpenFiles.writeAll dev p pos bs s).2 = _
    unfold Nargun.writeAll
    by_cases hb : bs = []
    · unfold OpenFiles.writeAll
      rw [if_pos hb]
      refine ⟨⟨ho, fun q => ?_⟩, rfl⟩
      rw [hb, modify_id _ _ _ (fun x => writeAt_nil x pos), hd]
    · obtain ⟨s', he, ho', -, -, h1⟩ := writeAll_step dev ps p pos bs hb s ho
        (by unfold Failed; cases s.unreported.get? p <;> simp [hf])
      rw [he]
      refine ⟨⟨ho', fun q => ?_⟩, rfl⟩
      rw [h1, hf, Map.get?_modify]
      split
      · rename_i hq; rw [hd, hq]
      · exact hd q
  · rintro p pos n hp s d ⟨ho, hd⟩
    show Upholds dev ps (OpenFiles.readExact dev p pos n s).1 _ ∧ (OpenFiles.readExact dev p pos n s).2 = _
    obtain ⟨s', ho', -, -, h1, he⟩ := readExact_step dev ps p pos n s ho
    rw [he]
    unfold Nargun.readExact
    rw [hd]
    cases d.get? p with
    | none => exact ⟨⟨ho', fun q => by rw [h1, hd]⟩, rfl⟩
    | some x =>
      dsimp only
      split
      · exact ⟨⟨ho', fun q => by rw [h1, hd]⟩, rfl⟩
      · exact ⟨⟨ho', fun q => by rw [h1, hd]⟩, rfl⟩

/-! ## What holds as long as all goes well -/

/-- `I` goes on as long as there is no error; `J` holds at the end in any case. -/
def Pres {σ α : Type} (I J : σ → Prop) (x : FsM σ α) : Prop :=
  ∀ s, I s → J (x s).1 ∧ ∀ a, (x s).2 = .ok a → I (x s).1

section
variable {σ : Type} {I J : σ → Prop}

theorem Pres.pure {α : Type} (hIJ : ∀ s, I s → J s) (a : α) : Pres I J (Pure.pure a : FsM σ α) := fun s h => ⟨hIJ s h, fun _ _ => h⟩

theorem Pres.lift {α : Type} (hIJ : ∀ s, I s → J s) (r : Res α) : Pres I J (FsM.lift r : FsM σ α) :=
  fun s h => ⟨hIJ s h, fun _ _ => h⟩

theorem Pres.bind {α β : Type} {x : FsM σ α} {f : α → FsM σ β} (h : Pres I J x) (hf : ∀ a, Pres I J (f a)) :
    Pres I J (x >>= f) := by
  intro s hs
  obtain ⟨h1, h2⟩ := h s hs
  show J (FsM.bind x f s).1 ∧ ∀ a, (FsM.bind x f s).2 = .ok a → I (FsM.bind x f s).1
  unfold FsM.bind
  cases hx : x s with
  | mk s' r =>
    rw [hx] at h1 h2
    cases r with
    | ok a => exact hf a s' (h2 a rfl)
    | err => exact ⟨h1, fun a ha => by cases ha⟩
    | panic => exact ⟨h1, fun a ha => by cases ha⟩

/-- The operations on the files of a set keep it up. -/
structure Safe (I J : σ → Prop) (P : Bytes → Prop) (a : FileSystem σ) : Prop where
  weaker : ∀ s, I s → J s
  openFile : ∀ p, P p → Pres I J (a.openFile p)
  writeAll : ∀ p pos bs, P p → Pres I J (a.writeAll p pos bs)
  readExact : ∀ p pos n, P p → Pres I J (a.readExact p pos n)

variable {P : Bytes → Prop} {a : FileSystem σ}

theorem Safe.writeBlocks (h : Safe I J P a) (p : Bytes) (hp : P p) (pos : Nat) (bs : List Bytes) :
    Pres I J (a.writeBlocks p pos bs) := by
  induction bs generalizing pos with
  | nil => exact Pres.pure h.weaker _
  | cons x bs ih => exact Pres.bind (h.writeAll p pos x hp) fun _ => ih _

theorem Safe.singleLoop (h : Safe I J P a) (p : Bytes) (hp : P p) (pos r : Nat) (data : List Bytes) :
    Pres I J (a.singleLoop p pos r data) := by
  induction data generalizing pos r with
  | nil =>
    cases r with
    | zero => exact Pres.pure h.weaker _
    | succ r => exact Pres.lift h.weaker _
  | cons x bs ih =>
    cases r with
    | zero => exact Pres.pure h.weaker _
    | succ r => exact Pres.bind (Pres.lift h.weaker _) fun part => Pres.bind (h.writeAll p pos part hp) fun _ => ih _ _

theorem Safe.singleWrite (h : Safe I J P a) (base : Bytes) (info : Info) (hp : P (SingleFile.path base info)) (idx : Nat)
    (data : List Bytes) : Pres I J (a.singleWrite base info idx data) := by
  unfold FileSystem.singleWrite
  refine Pres.bind (Pres.lift h.weaker _) fun last => ?_
  split
  · exact Pres.bind (h.openFile _ hp) fun _ => h.writeBlocks _ hp _ _
  · split
    · exact Pres.bind (h.openFile _ hp) fun _ => Pres.bind (Pres.lift h.weaker _) fun _ =>
        Pres.bind (Pres.lift h.weaker _) fun _ => h.singleLoop _ hp _ _ _
    · exact Pres.lift h.weaker _

theorem Safe.singleRead (h : Safe I J P a) (base : Bytes) (info : Info) (hp : P (SingleFile.path base info))
    (i c l : Nat) (buf : Bytes) : Pres I J (a.singleRead base info i c l buf) :=
  Pres.bind (h.openFile _ hp) fun _ => Pres.bind (Pres.lift h.weaker _) fun _ =>
    Pres.bind (h.readExact _ _ _ hp) fun _ => Pres.pure h.weaker _

theorem Safe.readFiles (h : Safe I J P a) (base name : Bytes) (segs : List FileWithBounds)
    (hp : ∀ seg ∈ segs, P (MultiFile.path base name seg.file)) (buf : Bytes) :
    Pres I J (a.readFiles base name segs buf) := by
  induction segs generalizing buf with
  | nil => exact Pres.pure h.weaker _
  | cons s segs ih =>
    exact Pres.bind (Pres.lift h.weaker _) fun _ => Pres.bind (h.openFile _ (hp s (by simp))) fun _ =>
      Pres.bind (h.readExact _ _ _ (hp s (by simp))) fun _ => ih (fun seg hs => hp seg (by simp [hs])) _

theorem Safe.writeChunk (h : Safe I J P a) (p : Bytes) (hp : P p) (data : List Bytes) (x y z : Nat) :
    Pres I J (a.writeChunk p data x y z) := by
  unfold FileSystem.writeChunk
  refine Pres.bind (Pres.lift h.weaker _) fun _ => Pres.bind (Pres.lift h.weaker _) fun _ =>
    Pres.bind (Pres.lift h.weaker _) fun slice => ?_
  match slice with
  | [] => exact Pres.lift h.weaker _
  | [c] => exact Pres.bind (Pres.lift h.weaker _) fun _ => h.writeAll _ _ _ hp
  | first :: c :: cs =>
    exact Pres.bind (Pres.lift h.weaker _) fun _ => Pres.bind (h.writeAll _ _ _ hp) fun _ =>
      Pres.bind (h.writeBlocks _ hp _ _) fun _ => Pres.bind (Pres.lift h.weaker _) fun _ => h.writeAll _ _ _ hp

theorem Safe.writeFiles (h : Safe I J P a) (base name : Bytes) (data : List Bytes) (segs : List FileWithBounds)
    (hp : ∀ seg ∈ segs, P (MultiFile.path base name seg.file)) :
    Pres I J (a.writeFiles base name data segs) := by
  induction segs with
  | nil => exact Pres.pure h.weaker _
  | cons s segs ih =>
    exact Pres.bind (h.openFile _ (hp s (by simp))) fun _ => Pres.bind (h.writeChunk _ (hp s (by simp)) _ _ _ _) fun _ =>
      ih fun seg hs => hp seg (by simp [hs])

end

end Nargun
