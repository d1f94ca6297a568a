import Verif.Lemmas.OpenFiles
import Verif.Lemmas.FsEffects

/-! # Open files: what is in the files in the end -/

namespace Nargun

open Spec

/-! ## What a part of a piece that is in one file is written as -/

/-- The writes of `writeChunk`, if it gets to all of them. -/
def chunkParts (data : List Bytes) (a b : Nat) : Option (List Bytes) :=
  match usub b a, usub b 1 with
  | .ok length, .ok e =>
    match sliceR data (a / BLOCK_SIZE) (e / BLOCK_SIZE + 1) with
    | .ok [x] =>
      match sliceR x (a % BLOCK_SIZE) (a % BLOCK_SIZE + length) with
      | .ok part => some [part]
      | _ => none
    | .ok (first :: x :: xs) =>
      match sliceFrom first (a % BLOCK_SIZE),
          sliceR ((x :: xs).getLast (by simp)) 0 (if b % BLOCK_SIZE = 0 then BLOCK_SIZE else b % BLOCK_SIZE) with
      | .ok part, .ok last => some (part :: ((x :: xs).dropLast ++ [last]))
      | _, _ => none
    | _ => none
  | _, _ => none

theorem fsm_lift_ok {σ α β : Type} (x : α) (f : α → FsM σ β) : (FsM.lift (.ok x) >>= f) = f x := rfl

theorem fsm_assoc {σ α β γ : Type} (x : FsM σ α) (f : α → FsM σ β) (g : β → FsM σ γ) :
    ((x >>= f) >>= g) = (x >>= fun a => f a >>= g) := by
  funext s
  show FsM.bind (FsM.bind x f) g s = FsM.bind x (fun a => FsM.bind (f a) g) s
  unfold FsM.bind
  cases x s with
  | mk s' r => cases r <;> rfl

theorem fsm_pure_unit {σ : Type} (x : FsM σ Unit) : (x >>= fun _ => (pure () : FsM σ Unit)) = x := by
  funext s
  show FsM.bind x (fun _ => _) s = _
  unfold FsM.bind
  cases x s with
  | mk s' r => cases r <;> rfl

theorem writeBlocks_snoc {σ : Type} (fs : FileSystem σ) (p : Bytes) (w : Nat) (bs : List Bytes) (l : Bytes) :
    fs.writeBlocks p w (bs ++ [l]) = (do fs.writeBlocks p w bs; fs.writeAll p (w + bs.flatten.length) l) := by
  induction bs generalizing w with
  | nil => exact fsm_pure_unit _
  | cons b bs ih =>
    show (fs.writeAll p w b >>= fun _ => fs.writeBlocks p (w + b.length) (bs ++ [l])) =
      ((fs.writeAll p w b >>= fun _ => fs.writeBlocks p (w + b.length) bs) >>= fun _ => _)
    rw [fsm_assoc, ih, List.flatten_cons, List.length_append, ← Nat.add_assoc]

theorem writeChunk_pure {σ : Type} (fs : FileSystem σ) (p : Bytes) (w : Nat) (data : List Bytes) (a b : Nat)
    (parts : List Bytes) (h : chunkParts data a b = some parts) : fs.writeChunk p data w a b = fs.writeBlocks p w parts := by
  unfold chunkParts at h
  unfold FileSystem.writeChunk
  split at h
  · rename_i length e h1 h2
    rw [h1, fsm_lift_ok, h2]
    dsimp only
    rw [fsm_lift_ok]
    split at h
    · rename_i x h3
      rw [h3, fsm_lift_ok]
      dsimp only
      split at h
      · rename_i part h4
        rw [h4, fsm_lift_ok, ← Option.some.inj h]
        exact (fsm_pure_unit _).symm
      · cases h
    · rename_i first x xs h3
      rw [h3, fsm_lift_ok]
      dsimp only
      split at h
      · rename_i part last h4 h5
        rw [h4, fsm_lift_ok, h5, ← Option.some.inj h]
        show _ = (fs.writeAll p w part >>= fun _ => fs.writeBlocks p (w + part.length) ((x :: xs).dropLast ++ [last]))
        rw [writeBlocks_snoc]
        rfl
      · cases h
    · cases h
  · cases h

/-- The files by path, as a file system. -/
def plainFiles : FileSystem Disk := ⟨Nargun.openFile fun _ => true, Nargun.writeAll, Nargun.readExact⟩

theorem plain_alike : Alike (fun a b => a = b) (fun _ => True) plainFiles (fun _ => true) := by
  refine ⟨fun p _ => ?_, fun p pos bs _ => ?_, fun p pos n _ => ?_⟩
  · rintro s d rfl; exact ⟨rfl, rfl⟩
  · rintro s d rfl; exact ⟨rfl, rfl⟩
  · rintro s d rfl; exact ⟨rfl, rfl⟩

theorem fsm_ok {σ α β : Type} {x : FsM σ α} {f : α → FsM σ β} {s : σ} {b : β} (h : ((x >>= f) s).2 = .ok b) :
    ∃ a, (x s).2 = .ok a ∧ (f a (x s).1).2 = .ok b := by
  change (FsM.bind x f s).2 = .ok b at h
  unfold FsM.bind at h
  cases hx : x s with
  | mk s' r =>
    rw [hx] at h
    cases r with
    | ok a => exact ⟨a, rfl, h⟩
    | err => cases h
    | panic => cases h

theorem chunk_some {σ : Type} (fs : FileSystem σ) (data : List Bytes) (a b : Nat) (s : σ) (p : Bytes) (w : Nat)
    (h : (fs.writeChunk p data w a b s).2 = .ok ()) : ∃ parts, chunkParts data a b = some parts := by
  unfold FileSystem.writeChunk at h
  obtain ⟨length, h1, h⟩ := fsm_ok h
  obtain ⟨e, h2, h⟩ := fsm_ok h
  obtain ⟨slice, h3, h⟩ := fsm_ok h
  unfold chunkParts
  change usub b a = .ok length at h1
  change usub b 1 = .ok e at h2
  change sliceR data _ _ = .ok slice at h3
  rw [h1, h2]
  dsimp only
  rw [h3]
  match slice, h with
  | [], h => cases h
  | [x], h =>
    obtain ⟨part, h4, h⟩ := fsm_ok h
    change sliceR x _ _ = .ok part at h4
    dsimp only
    rw [h4]
    exact ⟨_, rfl⟩
  | first :: x :: xs, h =>
    obtain ⟨part, h4, h⟩ := fsm_ok h
    obtain ⟨_, _, h⟩ := fsm_ok h
    obtain ⟨_, _, h⟩ := fsm_ok h
    obtain ⟨last, h5, h⟩ := fsm_ok h
    change sliceFrom first _ = .ok part at h4
    change sliceR _ _ _ = .ok last at h5
    dsimp only
    rw [h4, h5]
    exact ⟨_, rfl⟩

/-- A part of a piece is written as blocks that are this part, one after the other. -/
theorem chunk_parts (data : List Bytes) (a b : Nat) (hf : InBlocks data) (hab : a ≤ b) (hb : b ≤ data.flatten.length)
    (hz : a = b → a % 16384 ≠ 0) : ∃ parts : List Bytes, parts.flatten = (data.flatten.drop a).take (b - a) ∧
      ∀ (σ : Type) (fs : FileSystem σ) (p : Bytes) (w : Nat), fs.writeChunk p data w a b = fs.writeBlocks p w parts := by
  have heq : MultiFile.writeChunk [] data 0 a b [([], [])] =
      (Map.modify ([([], [])] : Disk) [] (fun f => writeAt f 0 ((data.flatten.drop a).take (b - a))), .ok ()) := by
    by_cases h : a = b
    · subst h
      rw [writeChunk_empty [] data 0 a _ hf (hz rfl) hb, modify_id _ _ _ (fun x => by rw [Nat.sub_self, List.take_zero, writeAt_nil])]
    · exact writeChunk_eq [] data 0 a b _ hf (by omega) hb
  have hsim := plain_alike.writeChunk [] trivial data 0 a b [([], [])] _ rfl
  rw [heq] at hsim
  obtain ⟨parts, hp⟩ := chunk_some plainFiles data a b _ [] 0 hsim.2
  refine ⟨parts, ?_, fun σ fs p w => writeChunk_pure fs p w data a b parts hp⟩
  have h1 := hsim.1
  rw [writeChunk_pure plainFiles [] 0 data a b parts hp] at h1
  rw [(plain_alike.writeBlocks [] trivial 0 parts [([], [])] _ rfl).1, writeBlocks_eq] at h1
  have hw : ∀ x : Bytes, writeAt [] 0 x = x := by
    intro x
    by_cases hx : x = []
    · subst hx; rfl
    · unfold writeAt; rw [if_neg hx]; simp
  have h2 := congrArg (fun d : Disk => d.get? []) h1
  dsimp only at h2
  rw [Map.get?_modify, Map.get?_modify, if_pos rfl, if_pos rfl] at h2
  have h3 := Option.some.inj h2
  dsimp only at h3
  rw [hw, hw] at h3
  exact h3

/-! ## Writes of what is to be in the files, in any order -/

section

variable (C : Bytes → Bytes) (ps : List Bytes)

/-- The bytes are to be at this position of the file. -/
def Meant (p : Bytes) (pos : Nat) (bs : Bytes) : Prop :=
  pos + bs.length ≤ (C p).length ∧ ∀ x, pos ≤ x → x < pos + bs.length → bs[x - pos]? = (C p)[x]?

/-- No file is too long, and all that is still to be written is as it should be. -/
structure Sound (d : Disk) (ws : List Handed) : Prop where
  short : ∀ p ∈ ps, ∀ c, d.get? p = some c → c.length ≤ (C p).length
  meant : ∀ w ∈ ws, Meant C w.path w.pos w.bytes
  there : ∀ w ∈ ws, w.path ∈ ps ∧ (d.get? w.path).isSome

/-- The byte is in the file, or it is still to be written. -/
def Right (d : Disk) (ws : List Handed) (p : Bytes) (x : Nat) : Prop :=
  (∃ c, d.get? p = some c ∧ x < c.length ∧ c[x]? = (C p)[x]?) ∨
  ∃ w ∈ ws, w.path = p ∧ w.pos ≤ x ∧ x < w.pos + w.bytes.length

variable {C ps}

/-- A write that is performed does no harm. -/
theorem performed (dev : Device) (hok : ∀ n, dev.fault n = none) (d : Disk) (w : Handed) (rest : List Handed)
    (h : Sound C ps d (w :: rest)) : Sound C ps (dev.perform d w) rest ∧
      (∀ p x, Right C d (w :: rest) p x → Right C (dev.perform d w) rest p x) ∧
      ∀ p, (d.get? p).isSome → ((dev.perform d w).get? p).isSome := by
  have hk : dev.kept w = w.bytes := by unfold Device.kept; rw [hok]
  have hget : ∀ p, (dev.perform d w).get? p =
      if p = w.path then (d.get? p).map (fun c => writeAt c w.pos w.bytes) else d.get? p := by
    intro p
    unfold Device.perform
    rw [Map.get?_modify, hk]
  obtain ⟨hm1, hm2⟩ := h.meant w (by simp)
  have hsome : ∀ p, (d.get? p).isSome → ((dev.perform d w).get? p).isSome := by
    intro p hp
    rw [hget]
    split
    · rw [Option.isSome_map]; exact hp
    · exact hp
  refine ⟨⟨fun p hp c hc => ?_, fun w' hw' => h.meant w' (by simp [hw']), fun w' hw' => ?_⟩, fun p x hr => ?_, hsome⟩
  · rw [hget] at hc
    split at hc
    · rename_i hpw
      obtain ⟨c0, hc0, rfl⟩ := Option.map_eq_some_iff.mp hc
      have := h.short p hp c0 hc0
      by_cases hb : w.bytes = []
      · rw [hb, writeAt_nil]; exact this
      · rw [writeAt_length _ _ _ hb]
        rw [← hpw] at hm1
        omega
    · exact h.short p hp c hc
  · obtain ⟨h1, h2⟩ := h.there w' (by simp [hw'])
    exact ⟨h1, hsome _ h2⟩
  · rcases hr with ⟨c, hc, hx, he⟩ | ⟨w', hw', hp, hx1, hx2⟩
    · left
      by_cases hpw : p = w.path
      · refine ⟨writeAt c w.pos w.bytes, by rw [hget, if_pos hpw, hc]; rfl, ?_⟩
        by_cases hb : w.bytes = []
        · rw [hb, writeAt_nil]; exact ⟨hx, he⟩
        · rw [writeAt_length _ _ _ hb, writeAt_get? _ _ _ hb]
          refine ⟨by omega, ?_⟩
          rw [if_pos hx]
          split
          · exact he
          · split
            · rw [hpw]; exact hm2 x (by omega) (by omega)
            · exact he
      · exact ⟨c, by rw [hget, if_neg hpw]; exact hc, hx, he⟩
    · rcases List.mem_cons.mp hw' with rfl | hw'
      · left
        have hs := (h.there w' (by simp)).2
        obtain ⟨c, hc⟩ := Option.isSome_iff_exists.mp hs
        have hb : w'.bytes ≠ [] := by intro hb; rw [hb] at hx2; simp at hx2; omega
        refine ⟨writeAt c w'.pos w'.bytes, by rw [hget, if_pos hp.symm, ← hp, hc]; rfl, ?_, ?_⟩
        · rw [writeAt_length _ _ _ hb]; omega
        · rw [writeAt_get? _ _ _ hb, if_neg (by omega), if_pos hx2, ← hp]
          exact hm2 x hx1 hx2
      · exact .inr ⟨w', hw', hp, hx1, hx2⟩

/-- Nothing was lost on the way from one state to another. -/
def Onward (C : Bytes → Bytes) (ps : List Bytes) (s s' : OpenFiles) : Prop :=
  Sound C ps s.disk s.handed → Sound C ps s'.disk s'.handed ∧
    (∀ p x, Right C s.disk s.handed p x → Right C s'.disk s'.handed p x) ∧
    ∀ p, (s.disk.get? p).isSome → (s'.disk.get? p).isSome

theorem Onward.refl (s : OpenFiles) : Onward C ps s s := fun h => ⟨h, fun _ _ => id, fun _ => id⟩

theorem Onward.trans {s s' s'' : OpenFiles} (h : Onward C ps s s') (h' : Onward C ps s' s'') : Onward C ps s s'' := by
  intro hs
  obtain ⟨h1, h2, h3⟩ := h hs
  obtain ⟨k1, k2, k3⟩ := h' h1
  exact ⟨k1, fun p x hr => k2 p x (h2 p x hr), fun p hp => k3 p (h3 p hp)⟩

theorem Sound.subset {d : Disk} {ws ws' : List Handed} (h : Sound C ps d ws) (hs : ∀ w ∈ ws', w ∈ ws) : Sound C ps d ws' :=
  ⟨h.short, fun w hw => h.meant w (hs w hw), fun w hw => h.there w (hs w hw)⟩

theorem Right.subset {d : Disk} {ws ws' : List Handed} {p : Bytes} {x : Nat} (h : Right C d ws p x)
    (hs : ∀ w ∈ ws, w ∈ ws') : Right C d ws' p x := by
  rcases h with h | ⟨w, hw, h⟩
  · exact .inl h
  · exact .inr ⟨w, hs w hw, h⟩

/-- Some of the writes are performed. -/
theorem performs (dev : Device) (hok : ∀ n, dev.fault n = none) (ws rest : List Handed) (d : Disk)
    (h : Sound C ps d (ws ++ rest)) : Sound C ps (ws.foldl dev.perform d) rest ∧
      (∀ p x, Right C d (ws ++ rest) p x → Right C (ws.foldl dev.perform d) rest p x) ∧
      ∀ p, (d.get? p).isSome → ((ws.foldl dev.perform d).get? p).isSome := by
  induction ws generalizing d with
  | nil => exact ⟨h, fun _ _ => id, fun _ => id⟩
  | cons w ws ih =>
    obtain ⟨h1, h2, h3⟩ := performed dev hok d w (ws ++ rest) h
    obtain ⟨k1, k2, k3⟩ := ih (dev.perform d w) h1
    exact ⟨k1, fun p x hr => k2 p x (h2 p x hr), fun p hp => k3 p (h3 p hp)⟩

theorem onward_split (dev : Device) (hok : ∀ n, dev.fault n = none) (q : Handed → Bool) (s s' : OpenFiles)
    (hd : s'.disk = (s.handed.filter q).foldl dev.perform s.disk) (hh : s'.handed = s.handed.filter fun w => !q w) :
    Onward C ps s s' := by
  intro hs
  rw [hd, hh]
  have hmem : ∀ w, w ∈ s.handed.filter q ++ s.handed.filter (fun w => !q w) ↔ w ∈ s.handed := by
    intro w
    rw [List.mem_append, List.mem_filter, List.mem_filter]
    cases q w <;> simp
  obtain ⟨h1, h2, h3⟩ := performs (C := C) (ps := ps) dev hok (s.handed.filter q) (s.handed.filter fun w => !q w) s.disk
    (hs.subset fun w hw => (hmem w).mp hw)
  exact ⟨h1, fun p x hr => h2 p x (hr.subset fun w hw => (hmem w).mpr hw), h3⟩

theorem onward_tick (dev : Device) (hok : ∀ n, dev.fault n = none) (s : OpenFiles) : Onward C ps s (s.tick dev) := by
  refine onward_split dev hok (fun w => decide (w.due ≤ s.calls + 1)) _ _ rfl ?_
  unfold OpenFiles.tick
  dsimp only
  congr 1
  funext w
  by_cases h : w.due ≤ s.calls + 1 <;> simp [h]

theorem onward_await (dev : Device) (hok : ∀ n, dev.fault n = none) (p : Bytes) (s : OpenFiles) :
    Onward C ps s (s.await dev p) := by
  unfold OpenFiles.await
  split
  · exact Onward.refl _
  · rename_i n _
    refine onward_split dev hok (fun w => decide (w.num = n)) _ _ rfl ?_
    dsimp only
    congr 1
    funext w
    simp

theorem await_calls (dev : Device) (p : Bytes) (s : OpenFiles) : (s.await dev p).unreported = s.unreported := by
  unfold OpenFiles.await
  split <;> rfl

theorem getWrite_outcome (o : Bytes → Bool) (now : CacheClock) (p : Bytes) (c : FileCache) :
    (c.getWrite o now p).2 = if o p then .ok () else .err := by
  unfold FileCache.getWrite FileCache.getEntry
  dsimp only
  by_cases h : o p = true
  · rw [if_pos h, if_pos h]
  · rw [if_neg h, if_neg h]

/-- Opening a file: nothing is lost, and if it can be opened, it is there. -/
theorem onward_open (dev : Device) (hok : ∀ n, dev.fault n = none) (p : Bytes) (hp : p ∈ ps) (s : OpenFiles) :
    Onward C ps s (OpenFiles.openFile dev p s).1 ∧ (dev.openable p = true → (OpenFiles.openFile dev p s).2 = .ok () ∧
      ((OpenFiles.openFile dev p s).1.disk.get? p).isSome) := by
  unfold OpenFiles.openFile
  dsimp only
  generalize hr : (s.tick dev).cache.getWrite dev.openable (dev.clock (s.tick dev).calls) p = r
  have hsame : ∀ (t : OpenFiles) (c : FileCache) (u : Map Bytes Nat), Onward C ps t { t with cache := c, unreported := u } :=
    fun t c u h => ⟨h, fun _ _ => id, fun _ => id⟩
  have h1 := (onward_tick (C := C) (ps := ps) dev hok s).trans (hsame (s.tick dev) r.1
    ((s.tick dev).unreported.filter fun e => r.1.contains e.1 || !(s.tick dev).cache.contains e.1))
  cases hr2 : r.2 with
  | ok a =>
    dsimp only
    have h2 := h1.trans (onward_await dev hok p _)
    generalize OpenFiles.await dev p { s.tick dev with
      cache := r.1
      unreported := (s.tick dev).unreported.filter fun e => r.1.contains e.1 || !(s.tick dev).cache.contains e.1 } = t at h2
    refine ⟨h2.trans ?_, fun _ => ⟨rfl, ?_⟩⟩
    · by_cases hc : t.disk.contains p = true
      · rw [if_pos hc]; exact Onward.refl _
      · rw [if_neg hc]
        have hnone : t.disk.get? p = none := by
          unfold Map.contains at hc
          simpa using hc
        have hg : ∀ q, (t.disk.insert p []).get? q = if q = p then some [] else t.disk.get? q :=
          fun q => Map.get?_insert ..
        intro hs
        refine ⟨⟨fun q hq c hc => ?_, hs.meant, fun w hw => ?_⟩, fun q x hx => ?_, fun q hq => ?_⟩
        · dsimp only at hc
          rw [hg] at hc
          split at hc
          · rw [← Option.some.inj hc]; simp
          · exact hs.short q hq c hc
        · obtain ⟨k1, k2⟩ := hs.there w hw
          refine ⟨k1, ?_⟩
          dsimp only
          rw [hg]
          split
          · rfl
          · exact k2
        · rcases hx with ⟨c, hc, hx⟩ | hx
          · left
            refine ⟨c, ?_, hx⟩
            dsimp only
            rw [hg, if_neg, hc]
            rintro rfl
            rename_i hc'
            rw [hnone] at hc'
            cases hc'
          · exact .inr hx
        · dsimp only
          rw [hg]
          split
          · rfl
          · exact hq
    · by_cases hc : t.disk.contains p = true
      · rw [if_pos hc]; exact hc
      · rw [if_neg hc, Map.get?_insert, if_pos rfl]; rfl
  | err =>
    refine ⟨h1, fun ho => ?_⟩
    rw [← hr, getWrite_outcome, if_pos ho] at hr2
    cases hr2
  | panic =>
    refine ⟨h1, fun ho => ?_⟩
    rw [← hr, getWrite_outcome, if_pos ho] at hr2
    cases hr2

/-- A write of what is to be there. -/
theorem onward_write (dev : Device) (hok : ∀ n, dev.fault n = none) (p : Bytes) (hp : p ∈ ps) (pos : Nat) (bs : Bytes)
    (hm : Meant C p pos bs) (s : OpenFiles) (hs : (s.disk.get? p).isSome) (hsound : Sound C ps s.disk s.handed) :
    Onward C ps s (OpenFiles.writeAll dev p pos bs s).1 ∧ (OpenFiles.writeAll dev p pos bs s).2 = .ok () ∧
      ∀ x, pos ≤ x → x < pos + bs.length →
        Right C (OpenFiles.writeAll dev p pos bs s).1.disk (OpenFiles.writeAll dev p pos bs s).1.handed p x := by
  unfold OpenFiles.writeAll
  by_cases hb : bs = []
  · rw [if_pos hb]
    refine ⟨Onward.refl _, rfl, fun x h1 h2 => ?_⟩
    rw [hb] at h2
    simp at h2
    omega
  · rw [if_neg hb]
    dsimp only
    have h1 : Onward C ps s ((s.tick dev).await dev p) := (onward_tick dev hok s).trans (onward_await dev hok p _)
    generalize (s.tick dev).await dev p = t at h1
    rw [if_neg (by cases t.unreported.get? p <;> simp [hok])]
    refine ⟨h1.trans ?_, rfl, fun x hx1 hx2 => .inr ⟨_, by simp; exact .inr rfl, rfl, hx1, hx2⟩⟩
    intro ht
    have hthere := (h1 hsound).2.2 p hs
    refine ⟨⟨ht.short, fun w hw => ?_, fun w hw => ?_⟩, fun q x hx => hx.subset fun w hw => by simp [hw], fun _ => id⟩
    · rcases List.mem_append.mp hw with hw | hw
      · exact ht.meant w hw
      · rw [List.mem_singleton.mp hw]; exact hm
    · rcases List.mem_append.mp hw with hw | hw
      · exact ht.there w hw
      · rw [List.mem_singleton.mp hw]; exact ⟨hp, hthere⟩

theorem onward_read (dev : Device) (hok : ∀ n, dev.fault n = none) (p : Bytes) (pos n : Nat) (s : OpenFiles) :
    Onward C ps s (OpenFiles.readExact dev p pos n s).1 := by
  unfold OpenFiles.readExact
  dsimp only
  have h1 : Onward C ps s ((s.tick dev).await dev p) := (onward_tick dev hok s).trans (onward_await dev hok p _)
  generalize (s.tick dev).await dev p = t at h1
  split
  · split <;> exact h1
  · exact h1

theorem Meant.append {p : Bytes} {pos : Nat} {a b : Bytes} (h : Meant C p pos (a ++ b)) :
    Meant C p pos a ∧ Meant C p (pos + a.length) b := by
  obtain ⟨h1, h2⟩ := h
  rw [List.length_append] at h1 h2
  refine ⟨⟨by omega, fun x hx1 hx2 => ?_⟩, ⟨by omega, fun x hx1 hx2 => ?_⟩⟩
  · rw [← h2 x hx1 (by omega), List.getElem?_append_left (by omega)]
  · rw [← h2 x (by omega) (by omega), List.getElem?_append_right (by omega)]
    congr 1
    omega

/-- Blocks of what is to be there, one after the other. -/
theorem onward_blocks (dev : Device) (hok : ∀ n, dev.fault n = none) (p : Bytes) (hp : p ∈ ps) (bs : List Bytes) :
    ∀ (pos : Nat) (_ : Meant C p pos bs.flatten) (s : OpenFiles) (_ : (s.disk.get? p).isSome)
      (_ : Sound C ps s.disk s.handed),
      Onward C ps s (dev.files.writeBlocks p pos bs s).1 ∧ (dev.files.writeBlocks p pos bs s).2 = .ok () ∧
      ∀ x, pos ≤ x → x < pos + bs.flatten.length →
        Right C (dev.files.writeBlocks p pos bs s).1.disk (dev.files.writeBlocks p pos bs s).1.handed p x := by
  induction bs with
  | nil =>
    intro pos _ s _ _
    exact ⟨Onward.refl _, rfl, fun x h1 h2 => absurd h2 (by simp; omega)⟩
  | cons b bs ih =>
    intro pos hm s hs hsound
    rw [List.flatten_cons] at hm
    obtain ⟨m1, m2⟩ := hm.append
    obtain ⟨h1, h2, h3⟩ := onward_write dev hok p hp pos b m1 s hs hsound
    have hstep : dev.files.writeBlocks p pos (b :: bs) s =
        dev.files.writeBlocks p (pos + b.length) bs (OpenFiles.writeAll dev p pos b s).1 := by
      show FsM.bind (OpenFiles.writeAll dev p pos b) (fun _ => dev.files.writeBlocks p (pos + b.length) bs) s = _
      unfold FsM.bind
      rw [show OpenFiles.writeAll dev p pos b s = ((OpenFiles.writeAll dev p pos b s).1, .ok ()) from Prod.ext rfl h2]
    rw [hstep]
    generalize (OpenFiles.writeAll dev p pos b s).1 = t at h1 h3
    obtain ⟨k1, k2, k3⟩ := h1 hsound
    obtain ⟨i1, i2, i3⟩ := ih _ m2 t (k3 p hs) k1
    refine ⟨h1.trans i1, i2, fun x hx1 hx2 => ?_⟩
    by_cases hx : x < pos + b.length
    · exact (i1 k1).2.1 p x (h3 x hx1 hx)
    · refine i3 x (by omega) ?_
      rw [List.flatten_cons, List.length_append] at hx2
      omega

/-- The part of a piece that is in one file is what is to be there. -/
def Fit (C : Bytes → Bytes) (ps : List Bytes) (dev : Device) (base name : Bytes) (data : List Bytes) (seg : FileWithBounds) :
    Prop :=
  MultiFile.path base name seg.file ∈ ps ∧ dev.openable (MultiFile.path base name seg.file) = true ∧
  ∃ parts : List Bytes, parts.flatten.length = seg.end - seg.start ∧
    Meant C (MultiFile.path base name seg.file) seg.before parts.flatten ∧
    dev.files.writeChunk (MultiFile.path base name seg.file) data seg.before seg.start seg.end =
      dev.files.writeBlocks (MultiFile.path base name seg.file) seg.before parts

theorem onward_files (dev : Device) (hok : ∀ n, dev.fault n = none) (base name : Bytes) (data : List Bytes)
    (segs : List FileWithBounds) (hfit : ∀ seg ∈ segs, Fit C ps dev base name data seg) :
    ∀ (s : OpenFiles) (_ : Sound C ps s.disk s.handed),
      Onward C ps s (dev.files.writeFiles base name data segs s).1 ∧
      (dev.files.writeFiles base name data segs s).2 = .ok () ∧
      ∀ seg ∈ segs,
        ((dev.files.writeFiles base name data segs s).1.disk.get? (MultiFile.path base name seg.file)).isSome ∧
        ∀ x, seg.before ≤ x → x < seg.before + (seg.end - seg.start) →
          Right C (dev.files.writeFiles base name data segs s).1.disk
            (dev.files.writeFiles base name data segs s).1.handed (MultiFile.path base name seg.file) x := by
  induction segs with
  | nil => exact fun s _ => ⟨Onward.refl _, rfl, fun seg h => by cases h⟩
  | cons seg segs ih =>
    intro s hsound
    obtain ⟨hp, ho, parts, hlen, hm, hchunk⟩ := hfit seg (by simp)
    obtain ⟨a1, a2⟩ := onward_open (C := C) (ps := ps) dev hok (MultiFile.path base name seg.file) hp s
    obtain ⟨a2, a3⟩ := a2 ho
    obtain ⟨b1, b2, b3⟩ := onward_blocks dev hok _ hp parts _ hm _ a3 (a1 hsound).1
    have hstep : dev.files.writeFiles base name data (seg :: segs) s =
        dev.files.writeFiles base name data segs
          (dev.files.writeBlocks (MultiFile.path base name seg.file) seg.before parts
            (OpenFiles.openFile dev (MultiFile.path base name seg.file) s).1).1 := by
      show FsM.bind (OpenFiles.openFile dev (MultiFile.path base name seg.file)) (fun _ =>
        FsM.bind (dev.files.writeChunk (MultiFile.path base name seg.file) data seg.before seg.start seg.end) fun _ =>
          dev.files.writeFiles base name data segs) s = _
      rw [hchunk]
      unfold FsM.bind
      rw [show OpenFiles.openFile dev (MultiFile.path base name seg.file) s = (_, .ok ()) from Prod.ext rfl a2]
      dsimp only
      rw [show dev.files.writeBlocks (MultiFile.path base name seg.file) seg.before parts
        (OpenFiles.openFile dev (MultiFile.path base name seg.file) s).1 = (_, .ok ()) from Prod.ext rfl b2]
    rw [hstep]
    have hon := a1.trans b1
    have hthere := (b1 (a1 hsound).1).2.2 _ a3
    generalize (dev.files.writeBlocks (MultiFile.path base name seg.file) seg.before parts
      (OpenFiles.openFile dev (MultiFile.path base name seg.file) s).1).1 = t at hon b3 hthere
    obtain ⟨i1, i2, i3⟩ := ih (fun seg' h => hfit seg' (by simp [h])) t (hon hsound).1
    refine ⟨hon.trans i1, i2, fun seg' hseg => ?_⟩
    rcases List.mem_cons.mp hseg with rfl | hseg
    · refine ⟨(i1 (hon hsound).1).2.2 _ hthere, fun x hx1 hx2 => (i1 (hon hsound).1).2.1 _ x (b3 x hx1 (by omega))⟩
    · exact i3 seg' hseg

theorem onward_bind {α β : Type} {s : OpenFiles} {x : FsM OpenFiles α} {f : α → FsM OpenFiles β}
    (hx : ∀ s, Onward C ps s (x s).1) (hf : ∀ a s, Onward C ps s (f a s).1) : Onward C ps s ((x >>= f) s).1 := by
  show Onward C ps s (FsM.bind x f s).1
  unfold FsM.bind
  have h := hx s
  cases hxs : x s with
  | mk t r =>
    rw [hxs] at h
    cases r with
    | ok a => exact h.trans (hf a t)
    | err => exact h
    | panic => exact h

theorem onward_reads (dev : Device) (hok : ∀ n, dev.fault n = none) (base name : Bytes) (segs : List FileWithBounds)
    (hp : ∀ seg ∈ segs, MultiFile.path base name seg.file ∈ ps) (buf : Bytes) (s : OpenFiles) :
    Onward C ps s (dev.files.readFiles base name segs buf s).1 := by
  induction segs generalizing buf s with
  | nil => exact Onward.refl _
  | cons seg segs ih =>
    exact onward_bind (fun _ => Onward.refl _) fun _ s =>
      onward_bind (fun s => (onward_open dev hok _ (hp seg (by simp)) s).1) fun _ s =>
      onward_bind (fun s => onward_read dev hok _ _ _ s) fun _ s => ih (fun seg' h => hp seg' (by simp [h])) _ s

/-- When all has been performed, what is right is in the files. -/
theorem settled_right (dev : Device) (hok : ∀ n, dev.fault n = none) (s : OpenFiles) (hs : Sound C ps s.disk s.handed)
    (p : Bytes) (hp : p ∈ ps) (hthere : (s.disk.get? p).isSome)
    (h : ∀ x, x < (C p).length → Right C s.disk s.handed p x) : (s.settled dev).get? p = some (C p) := by
  have hs' : Sound C ps s.disk (s.handed ++ []) := by rw [List.append_nil]; exact hs
  obtain ⟨h1, h2, h3⟩ := performs dev hok s.handed [] s.disk hs'
  rw [List.append_nil] at h2
  obtain ⟨c, hc⟩ := Option.isSome_iff_exists.mp (h3 p hthere)
  unfold OpenFiles.settled
  rw [hc]
  congr 1
  have hlen := h1.short p hp c hc
  apply List.ext_getElem?
  intro x
  by_cases hx : x < (C p).length
  · rcases h2 p x (h x hx) with ⟨c', hc', -, he⟩ | ⟨w, hw, -⟩
    · rw [hc] at hc'
      rw [Option.some.inj hc', he]
    · cases hw
  · rw [List.getElem?_eq_none (by omega), List.getElem?_eq_none (by omega)]

end

end Nargun
