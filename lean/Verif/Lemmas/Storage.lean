import Verif.Model.Storage
import Verif.Lemmas.DirBuilder

/-! # The storage functions on any file system and those of `Verif.Model.Fs`

File systems in corresponding states stay so, and give the same results. -/

namespace Nargun

open Spec

/-- Two computations keep their states in correspondence and have the same result. -/
def Sim {σ α : Type} (R : σ → Disk → Prop) (x : FsM σ α) (y : DiskM α) : Prop :=
  ∀ s t, R s t → R (x s).1 (y t).1 ∧ (x s).2 = (y t).2

section
variable {σ : Type} {R : σ → Disk → Prop}

theorem Sim.pure {α : Type} (a : α) : Sim R (Pure.pure a : FsM σ α) (Pure.pure a : DiskM α) := fun _ _ h => ⟨h, rfl⟩

theorem Sim.lift {α : Type} (r : Res α) : Sim R (FsM.lift r : FsM σ α) (DiskM.lift r : DiskM α) := fun _ _ h => ⟨h, rfl⟩

theorem Sim.bind {α β : Type} {x : FsM σ α} {y : DiskM α} {f : α → FsM σ β} {g : α → DiskM β} (h : Sim R x y)
    (hf : ∀ a, Sim R (f a) (g a)) : Sim R (x >>= f) (y >>= g) := by
  intro s t hr
  obtain ⟨h1, h2⟩ := h s t hr
  show R (FsM.bind x f s).1 (DiskM.bind y g t).1 ∧ (FsM.bind x f s).2 = (DiskM.bind y g t).2
  unfold FsM.bind DiskM.bind
  cases hx : x s with
  | mk s' r =>
    cases hy : y t with
    | mk t' r' =>
      rw [hx, hy] at h1 h2
      dsimp only at h1 h2
      subst h2
      cases r with
      | ok a => exact hf a s' t' h1
      | err => exact ⟨h1, rfl⟩
      | panic => exact ⟨h1, rfl⟩

/-- The two file systems behave alike on the paths of a set. -/
structure Alike (R : σ → Disk → Prop) (P : Bytes → Prop) (a : FileSystem σ) (openable : Bytes → Bool) : Prop where
  openFile : ∀ p, P p → Sim R (a.openFile p) (openFile openable p)
  writeAll : ∀ p pos bs, P p → Sim R (a.writeAll p pos bs) (writeAll p pos bs)
  readExact : ∀ p pos n, P p → Sim R (a.readExact p pos n) (readExact p pos n)

variable {P : Bytes → Prop} {a : FileSystem σ} {o : Bytes → Bool}

theorem Alike.writeBlocks (h : Alike R P a o) (p : Bytes) (hp : P p) (pos : Nat) (bs : List Bytes) :
    Sim R (a.writeBlocks p pos bs) (writeBlocks p pos bs) := by
  induction bs generalizing pos with
  | nil => exact Sim.pure _
  | cons x bs ih => exact Sim.bind (h.writeAll p pos x hp) fun _ => ih _

theorem Alike.singleLoop (h : Alike R P a o) (p : Bytes) (hp : P p) (pos r : Nat) (data : List Bytes) :
    Sim R (a.singleLoop p pos r data) (SingleFile.lastLoop p pos r data) := by
  induction data generalizing pos r with
  | nil =>
    cases r with
    | zero => exact Sim.pure _
    | succ r => exact Sim.lift _
  | cons x bs ih =>
    cases r with
    | zero => exact Sim.pure _
    | succ r => exact Sim.bind (Sim.lift _) fun part => Sim.bind (h.writeAll p pos part hp) fun _ => ih _ _

theorem Alike.singleWrite (h : Alike R P a o) (base : Bytes) (info : Info) (hp : P (SingleFile.path base info)) (idx : Nat)
    (data : List Bytes) : Sim R (a.singleWrite base info idx data) (SingleFile.writePiece o base info idx data) := by
  unfold FileSystem.singleWrite SingleFile.writePiece
  refine Sim.bind (Sim.lift _) fun last => ?_
  split
  · exact Sim.bind (h.openFile _ hp) fun _ => h.writeBlocks _ hp _ _
  · split
    · exact Sim.bind (h.openFile _ hp) fun _ => Sim.bind (Sim.lift _) fun _ => Sim.bind (Sim.lift _) fun _ =>
        h.singleLoop _ hp _ _ _
    · exact Sim.lift _

theorem Alike.singleRead (h : Alike R P a o) (base : Bytes) (info : Info) (hp : P (SingleFile.path base info))
    (i c l : Nat) (buf : Bytes) : Sim R (a.singleRead base info i c l buf) (SingleFile.readBlock o base info i c l buf) :=
  Sim.bind (h.openFile _ hp) fun _ => Sim.bind (Sim.lift _) fun _ => Sim.bind (h.readExact _ _ _ hp) fun _ => Sim.pure _

theorem Alike.readFiles (h : Alike R P a o) (base name : Bytes) (segs : List FileWithBounds)
    (hp : ∀ seg ∈ segs, P (MultiFile.path base name seg.file)) (buf : Bytes) :
    Sim R (a.readFiles base name segs buf) (MultiFile.readFiles o base name segs buf) := by
  induction segs generalizing buf with
  | nil => exact Sim.pure _
  | cons s segs ih =>
    exact Sim.bind (Sim.lift _) fun _ => Sim.bind (h.openFile _ (hp s (by simp))) fun _ =>
      Sim.bind (h.readExact _ _ _ (hp s (by simp))) fun _ => ih (fun seg hs => hp seg (by simp [hs])) _

theorem Alike.writeChunk (h : Alike R P a o) (p : Bytes) (hp : P p) (data : List Bytes) (x y z : Nat) :
    Sim R (a.writeChunk p data x y z) (MultiFile.writeChunk p data x y z) := by
  unfold FileSystem.writeChunk MultiFile.writeChunk
  refine Sim.bind (Sim.lift _) fun _ => Sim.bind (Sim.lift _) fun _ => Sim.bind (Sim.lift _) fun slice => ?_
  match slice with
  | [] => exact Sim.lift _
  | [c] => exact Sim.bind (Sim.lift _) fun _ => h.writeAll _ _ _ hp
  | first :: c :: cs =>
    exact Sim.bind (Sim.lift _) fun _ => Sim.bind (h.writeAll _ _ _ hp) fun _ =>
      Sim.bind (h.writeBlocks _ hp _ _) fun _ => Sim.bind (Sim.lift _) fun _ => h.writeAll _ _ _ hp

theorem Alike.writeFiles (h : Alike R P a o) (base name : Bytes) (data : List Bytes) (segs : List FileWithBounds)
    (hp : ∀ seg ∈ segs, P (MultiFile.path base name seg.file)) :
    Sim R (a.writeFiles base name data segs) (MultiFile.writeFiles o base name data segs) := by
  induction segs with
  | nil => exact Sim.pure _
  | cons s segs ih =>
    exact Sim.bind (h.openFile _ (hp s (by simp))) fun _ => Sim.bind (h.writeChunk _ (hp s (by simp)) _ _ _ _) fun _ =>
      ih fun seg hs => hp seg (by simp [hs])

end

/-! ## The tree and the files by path -/

theorem walk_congr {t t' : Tree} (h : ∀ l, t.get? l = some .dir ↔ t'.get? l = some .dir) (cur : Loc) (q : List Bytes) :
    t.walk cur q = t'.walk cur q := by
  have hd : ∀ l, t.isDir l = t'.isDir l := by
    intro l
    unfold Tree.isDir
    rw [Bool.eq_iff_iff]
    simp only [Bool.or_eq_true, beq_iff_eq, h]
  induction q generalizing cur with
  | nil => rfl
  | cons c q ih => simp only [Tree.walk, hd, ih]

theorem locate_congr {t t' : Tree} (h : ∀ l, t.get? l = some .dir ↔ t'.get? l = some .dir) (p : Bytes) :
    t.locate p = t'.locate p := by
  unfold Tree.locate
  simp only [walk_congr h]

/-- Paths and the different places they lead to; no directory is there. -/
structure Paths (t1 : Tree) (fl : List (Bytes × Loc)) : Prop where
  noSlash : ∀ e ∈ fl, e.1.getLast? ≠ some 47#8
  locate : ∀ e ∈ fl, t1.locate e.1 = some e.2
  below : ∀ e ∈ fl, e.2 ≠ []
  noDir : ∀ e ∈ fl, t1.get? e.2 ≠ some .dir
  paths : ∀ e ∈ fl, ∀ e' ∈ fl, e.1 = e'.1 → e = e'
  locs : ∀ e ∈ fl, ∀ e' ∈ fl, e.2 = e'.2 → e = e'

/-- The tree `t`, which has come from `t1`, has the files of `d`. -/
structure Mirror (t1 : Tree) (fl : List (Bytes × Loc)) (t : Tree) (d : Disk) : Prop where
  dirs : ∀ l, t.get? l = some .dir ↔ t1.get? l = some .dir
  files : ∀ e ∈ fl, t.get? e.2 = (d.get? e.1).map .file
  rest : ∀ l, l ∉ fl.map (·.2) → t.get? l = t1.get? l

theorem Mirror.put {t1 t : Tree} {fl : List (Bytes × Loc)} {d d' : Disk} (hp : Paths t1 fl) (h : Mirror t1 fl t d)
    (e : Bytes × Loc) (he : e ∈ fl) (c : Bytes) (hd : ∀ p, d'.get? p = if p = e.1 then some c else d.get? p) :
    Mirror t1 fl (t.insert e.2 (.file c)) d' := by
  refine ⟨fun l => ?_, fun e' he' => ?_, fun l hl => ?_⟩
  · rw [Map.get?_insert]
    split
    · rename_i hl
      rw [hl]
      exact ⟨fun hx => by simp at hx, fun hx => absurd hx (hp.noDir e he)⟩
    · exact h.dirs l
  · rw [Map.get?_insert, hd]
    by_cases hx : e'.2 = e.2
    · rw [if_pos hx, if_pos (by rw [hp.locs e' he' e he hx])]; rfl
    · rw [if_neg hx, if_neg (fun hc => hx (by rw [hp.paths e' he' e he hc])), h.files e' he']
  · rw [Map.get?_insert, if_neg (fun hc => hl (by rw [hc]; exact List.mem_map_of_mem he)), h.rest l hl]

theorem mirror_alike (allowed : Loc → Bool) (ha : ∀ l, allowed l = true) (t1 : Tree) (fl : List (Bytes × Loc))
    (hp : Paths t1 fl) :
    Alike (Mirror t1 fl) (fun p => ∃ l, (p, l) ∈ fl) (treeFs allowed) (fun _ => true) := by
  refine ⟨?_, ?_, ?_⟩
  · rintro p ⟨l, he⟩ t d h
    show Mirror t1 fl (Tree.openFile allowed p t).1 _ ∧ (Tree.openFile allowed p t).2 = _
    unfold Tree.openFile openFile
    rw [if_neg (hp.noSlash _ he), locate_congr h.dirs, hp.locate _ he]
    dsimp only
    have hb : ¬ (l.isEmpty = true ∨ allowed l = false) := by
      rintro (hc | hc)
      · exact hp.below _ he (List.isEmpty_iff.mp hc)
      · rw [ha] at hc; cases hc
    have hf := h.files _ he
    dsimp only at hf
    rw [if_neg hb, hf]
    cases hd : d.get? p with
    | some c => exact ⟨h, rfl⟩
    | none =>
      refine ⟨?_, rfl⟩
      exact h.put hp (p, l) he [] fun q => Map.get?_insert _ _ _ _
  · rintro p pos bs ⟨l, he⟩ t d h
    show Mirror t1 fl (Tree.writeAll p pos bs t).1 _ ∧ (Tree.writeAll p pos bs t).2 = _
    unfold Tree.writeAll Tree.contentAt writeAll
    rw [locate_congr h.dirs, hp.locate _ he]
    have hf := h.files _ he
    dsimp only at hf ⊢
    rw [hf]
    cases hd : d.get? p with
    | some c =>
      refine ⟨?_, rfl⟩
      refine h.put hp (p, l) he _ fun q => ?_
      rw [Map.get?_modify]
      dsimp only
      split
      · rename_i hq; rw [hq, hd]; rfl
      · rfl
    | none =>
      refine ⟨⟨h.dirs, fun e' he' => ?_, h.rest⟩, rfl⟩
      refine (h.files e' he').trans ?_
      rw [Map.get?_modify]
      split
      · rename_i hq; rw [hq, hd]; rfl
      · rfl
  · rintro p pos n ⟨l, he⟩ t d h
    show Mirror t1 fl (Tree.readExact p pos n t).1 _ ∧ (Tree.readExact p pos n t).2 = _
    unfold Tree.readExact Tree.contentAt readExact
    rw [locate_congr h.dirs, hp.locate _ he]
    have hf := h.files _ he
    dsimp only at hf ⊢
    rw [hf]
    cases hd : d.get? p with
    | some c =>
      dsimp only [Option.map_some]
      split <;> exact ⟨h, rfl⟩
    | none => exact ⟨h, rfl⟩

/-! ## What no call changes -/

/-- A computation keeps a property of the file system, whatever its outcome. -/
def Keeps {σ α : Type} (I : σ → Prop) (x : FsM σ α) : Prop := ∀ s, I s → I (x s).1

section
variable {σ : Type} {I : σ → Prop}

theorem Keeps.lift {α : Type} (r : Res α) : Keeps I (FsM.lift r : FsM σ α) := fun _ h => h

theorem Keeps.pure {α : Type} (a : α) : Keeps I (Pure.pure a : FsM σ α) := fun _ h => h

theorem Keeps.bind {α β : Type} {x : FsM σ α} {f : α → FsM σ β} (h : Keeps I x) (hf : ∀ a, Keeps I (f a)) :
    Keeps I (x >>= f) := by
  intro s hs
  have h1 := h s hs
  show I (FsM.bind x f s).1
  unfold FsM.bind
  cases hx : x s with
  | mk s' r =>
    rw [hx] at h1
    cases r with
    | ok a => exact hf a s' h1
    | err => exact h1
    | panic => exact h1

/-- All operations of a file system keep the property. -/
structure KeptBy (I : σ → Prop) (a : FileSystem σ) : Prop where
  openFile : ∀ p, Keeps I (a.openFile p)
  writeAll : ∀ p pos bs, Keeps I (a.writeAll p pos bs)
  readExact : ∀ p pos n, Keeps I (a.readExact p pos n)

variable {a : FileSystem σ}

theorem KeptBy.writeBlocks (h : KeptBy I a) (p : Bytes) (pos : Nat) (bs : List Bytes) : Keeps I (a.writeBlocks p pos bs) := by
  induction bs generalizing pos with
  | nil => exact Keeps.pure _
  | cons x bs ih => exact Keeps.bind (h.writeAll p pos x) fun _ => ih _

theorem KeptBy.writeChunk (h : KeptBy I a) (p : Bytes) (data : List Bytes) (x y z : Nat) :
    Keeps I (a.writeChunk p data x y z) := by
  unfold FileSystem.writeChunk
  refine Keeps.bind (Keeps.lift _) fun _ => Keeps.bind (Keeps.lift _) fun _ => Keeps.bind (Keeps.lift _) fun slice => ?_
  match slice with
  | [] => exact Keeps.lift _
  | [c] => exact Keeps.bind (Keeps.lift _) fun _ => h.writeAll _ _ _
  | first :: c :: cs =>
    exact Keeps.bind (Keeps.lift _) fun _ => Keeps.bind (h.writeAll _ _ _) fun _ =>
      Keeps.bind (h.writeBlocks _ _ _) fun _ => Keeps.bind (Keeps.lift _) fun _ => h.writeAll _ _ _

theorem KeptBy.writeFiles (h : KeptBy I a) (base name : Bytes) (data : List Bytes) (segs : List FileWithBounds) :
    Keeps I (a.writeFiles base name data segs) := by
  induction segs with
  | nil => exact Keeps.pure _
  | cons s segs ih => exact Keeps.bind (h.openFile _) fun _ => Keeps.bind (h.writeChunk _ _ _ _ _) fun _ => ih

theorem KeptBy.readFiles (h : KeptBy I a) (base name : Bytes) (segs : List FileWithBounds) (buf : Bytes) :
    Keeps I (a.readFiles base name segs buf) := by
  induction segs generalizing buf with
  | nil => exact Keeps.pure _
  | cons s segs ih =>
    exact Keeps.bind (Keeps.lift _) fun _ => Keeps.bind (h.openFile _) fun _ => Keeps.bind (h.readExact _ _ _) fun _ => ih _

/-- A file that cannot be opened: no write that includes it succeeds. -/
theorem KeptBy.writeFiles_fails (h : KeptBy I a) (base name : Bytes) (data : List Bytes) (segs : List FileWithBounds)
    (seg : FileWithBounds) (hseg : seg ∈ segs)
    (hno : ∀ s, I s → (a.openFile (MultiFile.path base name seg.file) s).2 ≠ .ok ()) (s : σ) (hs : I s) :
    (a.writeFiles base name data segs s).2 ≠ .ok () := by
  have key : ∀ {α β : Type} (x : FsM σ α) (f : α → FsM σ β) (b : β) (s : σ),
      ((x >>= f) s).2 = .ok b → ∃ c, (x s).2 = .ok c ∧ (f c (x s).1).2 = .ok b := by
    intro α β x f b s hb
    have hb' : (FsM.bind x f s).2 = .ok b := hb
    unfold FsM.bind at hb'
    cases hx : x s with
    | mk s' r =>
      rw [hx] at hb'
      cases r with
      | ok c => exact ⟨c, rfl, hb'⟩
      | err => simp at hb'
      | panic => simp at hb'
  induction segs generalizing s with
  | nil => simp at hseg
  | cons s0 segs ih =>
    intro hok
    obtain ⟨_, h1, hok⟩ := key _ _ _ _ hok
    obtain ⟨_, h2, hok⟩ := key _ _ _ _ hok
    rcases List.mem_cons.mp hseg with rfl | hin
    · exact hno s hs h1
    · exact ih hin _ (h.writeChunk _ _ _ _ _ _ (h.openFile _ _ hs)) hok

end

/-- No call on a file makes a directory disappear. -/
theorem dirs_kept (allowed : Loc → Bool) (t1 : Tree) :
    KeptBy (fun t : Tree => ∀ l, t1.get? l = some .dir → t.get? l = some .dir) (treeFs allowed) := by
  refine ⟨fun p t h => ?_, fun p pos bs t h => ?_, fun p pos n t h => ?_⟩
  · show ∀ l, _ → (Tree.openFile allowed p t).1.get? l = _
    unfold Tree.openFile
    split
    · exact h
    · split
      · exact h
      · rename_i l0 _
        split
        · exact h
        · split
          · exact h
          · exact h
          · rename_i hnone
            intro l hl
            have := h l hl
            show (t.insert l0 (.file [])).get? l = _
            rw [Map.get?_insert]
            split
            · rename_i e; rw [e, hnone] at this; simp at this
            · exact this
  · show ∀ l, _ → (Tree.writeAll p pos bs t).1.get? l = _
    unfold Tree.writeAll
    split
    · rename_i l0 c hc
      intro l hl
      have := h l hl
      show (t.insert l0 _).get? l = _
      rw [Map.get?_insert]
      split
      · rename_i e
        unfold Tree.contentAt at hc
        split at hc
        · simp at hc
        · split at hc
          · rename_i h2
            obtain ⟨rfl, -⟩ := Prod.mk.inj (Option.some.inj hc)
            rw [e, h2] at this
            simp at this
          · simp at hc
      · exact this
    · exact h
  · show ∀ l, _ → (Tree.readExact p pos n t).1.get? l = _
    unfold Tree.readExact
    split
    · split <;> exact h
    · exact h

end Nargun
