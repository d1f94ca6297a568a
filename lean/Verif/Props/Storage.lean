import Verif.Lemmas.Storage
import Verif.Props.DirBuilder
import Verif.Spec.Storage

/-! # The storage of a torrent in the file system: C128, C129 -/

namespace Nargun

open Spec DirBuilder

/-! ## Paths -/

theorem getLast?_name {c : Bytes} (h : NormalName c) : c.getLast? ≠ some 47#8 := by
  intro hc
  exact h.2.1 (List.mem_of_getLast? hc)

theorem getLast?_append_name (a : Bytes) {c : Bytes} (hc : c ≠ []) (h : c.getLast? ≠ some 47#8) :
    (a ++ c).getLast? ≠ some 47#8 := by
  rw [List.getLast?_append]
  cases hx : c.getLast? with
  | none => exact absurd (List.getLast?_eq_none_iff.mp hx) hc
  | some x => rw [hx] at h; simpa using h

theorem joinPath_last (p : List Bytes) (hne : p ≠ []) (hp : ∀ c ∈ p, NormalName c) :
    MultiFile.joinPath p ≠ [] ∧ (MultiFile.joinPath p).getLast? ≠ some 47#8 := by
  match p with
  | [] => exact absurd rfl hne
  | [c] => exact ⟨(hp c (by simp)).1, getLast?_name (hp c (by simp))⟩
  | c :: c' :: cs =>
    obtain ⟨h1, h2⟩ := joinPath_last (c' :: cs) (by simp) (fun x hx => hp x (by simp [hx]))
    show c ++ ascii "/" ++ MultiFile.joinPath (c' :: cs) ≠ [] ∧ _
    exact ⟨by simp [h1], getLast?_append_name _ h1 h2⟩

theorem names_multiPath (base name : Bytes) (hname : NormalName name) (f : TorrentFile) (hf : ∀ c ∈ f.path, NormalName c) :
    names (MultiFile.path base name f) = names base ++ name :: f.path := by
  unfold MultiFile.path
  rw [names_sep, names_sep, names_normal hname, names_joinPath f.path hf]
  simp

/-- The directories of several files, with the torrent's own. -/
theorem ancestor_stored {info : Info} {files : List TorrentFile} (hm : info.mode = .multi files) (q : List Bytes) :
    ProperAncestor (storedFiles info) q →
      ∃ q', q = info.name :: q' ∧ (q' = [] ∨ ProperAncestor files q') := by
  rintro ⟨hq, f, hf, rest, hr, he⟩
  unfold storedFiles at hf
  rw [hm] at hf
  obtain ⟨g, hg, rfl⟩ := List.mem_map.mp hf
  cases q with
  | nil => exact absurd rfl hq
  | cons c q =>
    obtain ⟨rfl, he'⟩ := List.cons.inj he
    refine ⟨q, rfl, ?_⟩
    by_cases hq' : q = []
    · exact .inl hq'
    · exact .inr ⟨hq', g, hg, rest, hr, he'⟩

theorem stored_ancestor {info : Info} {files : List TorrentFile} (hm : info.mode = .multi files) {q : List Bytes}
    (h : ProperAncestor files q) : ProperAncestor (storedFiles info) (info.name :: q) := by
  obtain ⟨_, f, hf, rest, hr, he⟩ := h
  refine ⟨by simp, ⟨info.name :: f.path, f.length⟩, ?_, rest, hr, by simp [he]⟩
  unfold storedFiles
  rw [hm]
  exact List.mem_map.mpr ⟨f, hf, rfl⟩

theorem stored_top {info : Info} {files : List TorrentFile} (hm : info.mode = .multi files) (f : TorrentFile)
    (hf : f ∈ files) (hne : f.path ≠ []) : ProperAncestor (storedFiles info) [info.name] := by
  refine ⟨by simp, ⟨info.name :: f.path, f.length⟩, ?_, f.path, hne, by simp⟩
  unfold storedFiles
  rw [hm]
  exact List.mem_map.mpr ⟨f, hf, rfl⟩

theorem stored_lengths {info : Info} {files : List TorrentFile} (hm : info.mode = .multi files) :
    totalLength (storedFiles info) = totalLength files ∧ (storedFiles info).length = files.length ∧
    ∀ i, fileStart (storedFiles info) i = fileStart files i := by
  unfold storedFiles totalLength fileStart
  rw [hm]
  refine ⟨?_, by simp, fun i => ?_⟩
  · simp only [List.map_map]; rfl
  · rw [← List.map_take]; simp only [List.map_map]; rfl

theorem storable_setting {info : Info} (hs : Storable info) {files : List TorrentFile} (hm : info.mode = .multi files)
    (base : Bytes) : MultiSetting base info files := by
  obtain ⟨h1, h2, h3⟩ := stored_lengths hm
  refine ⟨h1 ▸ hs.fits, ?_, ?_⟩
  · have hd := hs.distinct
    unfold storedFiles at hd
    rw [hm] at hd
    simp only [List.map_map] at hd
    unfold List.Nodup at hd ⊢
    rw [List.pairwise_map] at hd ⊢
    refine (List.Pairwise.and_mem.mp hd).imp ?_
    rintro f g ⟨hf, hg, hfg⟩ he
    have hn := congrArg names he
    rw [names_multiPath base info.name hs.name f (hs.paths files hm f hf).2,
      names_multiPath base info.name hs.name g (hs.paths files hm g hg).2] at hn
    exact hfg (List.append_cancel_left hn)
  · intro i hi hz
    have := hs.empty i (by omega)
    rw [h3] at this
    refine this ?_
    unfold storedFiles
    simp only [hm, List.getElem_map]
    exact hz

/-! ## The start -/

/-- The paths of the torrent's files, and where they lead. -/
def pathsOf (base : Bytes) (b : Loc) (info : Info) : List (Bytes × Loc) :=
  match info.mode with
  | .single _ => [(SingleFile.path base info, b ++ [info.name])]
  | .multi files => files.map fun f => (MultiFile.path base info.name f, b ++ info.name :: f.path)

theorem pathsOf_locs (base : Bytes) (b : Loc) (info : Info) :
    (pathsOf base b info).map (·.2) = (storedFiles info).map (fun f => b ++ f.path) := by
  unfold pathsOf storedFiles
  cases info.mode with
  | single len => rfl
  | multi files => simp

theorem locate_built (base : Bytes) (b : Loc) (name : Bytes) (files : List TorrentFile) (hname : NormalName name)
    (f : TorrentFile) (hf : f ∈ files) (hne : f.path ≠ []) (hn : ∀ c ∈ f.path, NormalName c) (t t1 : Tree)
    (hb : LeadsTo t base b) (hdirs : ∀ l, t.get? l = some .dir → t1.get? l = some .dir)
    (h1 : ∀ l, l = b ++ [name] ∨ (∃ q, ProperAncestor files q ∧ l = b ++ name :: q) → t1.get? l = some .dir) :
    t1.locate (MultiFile.path base name f) = some (b ++ name :: f.path) := by
  obtain ⟨p, c, hp⟩ : ∃ p c, f.path = p ++ [c] :=
    ⟨f.path.dropLast, f.path.getLast hne, (List.dropLast_concat_getLast hne).symm⟩
  have hnm : names (MultiFile.path base name f) = (names base ++ name :: p) ++ [c] := by
    rw [names_multiPath base name hname f hn, hp]; simp
  have hc : NormalName c := hn c (by rw [hp]; simp)
  have hw : t1.walk [] (names base ++ name :: p) = some (b ++ name :: p) := by
    rw [walk_append, walk_mono hdirs [] (names base) b hb]
    show t1.walk b (name :: p) = _
    refine walk_dirs t1 b (name :: p) ?_ ?_
    · intro x hx
      rcases List.mem_cons.mp hx with rfl | hx
      · exact hname
      · exact hn x (by rw [hp]; simp [hx])
    · intro y r hy he
      cases y with
      | nil => exact absurd rfl hy
      | cons x y =>
        obtain ⟨rfl, hy'⟩ := List.cons.inj he
        unfold Tree.isDir
        simp only [Bool.or_eq_true, beq_iff_eq]
        right
        apply h1
        by_cases hye : y = []
        · left; rw [hye]
        · right
          exact ⟨y, ⟨hye, f, hf, r ++ [c], by simp, by rw [hp, hy']; simp⟩, rfl⟩
  rw [locate_normal t1 _ _ c hc hnm, hw, hp]
  simp

theorem start_ok (allowed : Loc → Bool) (ha : ∀ l, allowed l = true) (base : Bytes) (b : Loc) (info : Info) (t : Tree)
    (hb : LeadsTo t base b) (hempty : ∀ q, t.get? (b ++ info.name :: q) = none) (hs : Storable info)
    (order : List Bytes) (ho : ∀ files, info.mode = .multi files → SetOrder order (inserted files)) :
    ∃ t1, FS.new allowed base info order t = (t1, .ok ()) ∧ Paths t1 (pathsOf base b info) ∧
      (∀ e ∈ pathsOf base b info, t1.get? e.2 = none) ∧
      (∀ q, ProperAncestor (storedFiles info) q → t1.get? (b ++ q) = some .dir) ∧
      (∀ l, (∀ q, ProperAncestor (storedFiles info) q → l ≠ b ++ q) → t1.get? l = t.get? l) := by
  unfold FS.new
  cases hm : info.mode with
  | single len =>
    have hst : storedFiles info = [⟨[info.name], len⟩] := by unfold storedFiles; rw [hm]
    have hpa : pathsOf base b info = [(SingleFile.path base info, b ++ [info.name])] := by unfold pathsOf; rw [hm]
    have hno : ∀ q, ¬ ProperAncestor (storedFiles info) q := by
      rintro q ⟨hq, f, hf, rest, hr, he⟩
      rw [hst] at hf
      rw [List.mem_singleton.mp hf] at he
      have := congrArg List.length he
      simp only [List.length_append, List.length_cons, List.length_nil] at this
      have h1 := List.length_pos_iff.mpr hq
      have h2 := List.length_pos_iff.mpr hr
      omega
    refine ⟨t, rfl, ?_, ?_, fun q hq => absurd hq (hno q), fun _ _ => rfl⟩
    · rw [hpa]
      have hone : ∀ e ∈ [(SingleFile.path base info, b ++ [info.name])], e = (SingleFile.path base info, b ++ [info.name]) :=
        fun e he => List.mem_singleton.mp he
      refine ⟨?_, ?_, ?_, ?_, ?_, ?_⟩
      · intro e he
        rw [hone e he]
        exact getLast?_append_name _ hs.name.1 (getLast?_name hs.name)
      · intro e he
        rw [hone e he]
        have hn : names (SingleFile.path base info) = names base ++ [info.name] := by
          unfold SingleFile.path
          rw [names_sep, names_normal hs.name]
        rw [locate_normal t _ _ info.name hs.name hn, hb]
        rfl
      · intro e he
        rw [hone e he]
        simp
      · intro e he
        rw [hone e he]
        rw [hempty []]
        simp
      · intro e he e' he' _
        rw [hone e he, hone e' he']
      · intro e he e' he' _
        rw [hone e he, hone e' he']
    · intro e he
      rw [hpa] at he
      rw [List.mem_singleton.mp he]
      exact hempty []
  | multi files =>
    have hpa : pathsOf base b info = files.map fun f => (MultiFile.path base info.name f, b ++ info.name :: f.path) := by
      unfold pathsOf; rw [hm]
    have hpl := hs.paths files hm
    have hnf : NormalFiles files := fun f hf => (hpl f hf).2
    obtain ⟨t1, _, h1, h2, h3⟩ := C54_tree base info.name hs.name files hnf b t hb hempty allowed ha order (ho files hm)
    have hdirs : ∀ l, t.get? l = some .dir → t1.get? l = some .dir := by
      intro l hl
      by_cases hc : l = b ++ [info.name] ∨ (∃ q, ProperAncestor files q ∧ l = b ++ info.name :: q)
      · exact h1 l hc
      · rw [h2 l hc]; exact hl
    have hfree : ∀ f ∈ files, t1.get? (b ++ info.name :: f.path) = none := by
      intro f hf
      rw [h2, hempty]
      rintro (hc | ⟨q, hq, hc⟩)
      · have := List.append_cancel_left hc
        exact (hpl f hf).1 (List.cons.inj this).2
      · have := (List.cons.inj (List.append_cancel_left hc)).2
        refine hs.noClash ⟨info.name :: f.path, f.length⟩ ?_ ?_
        · unfold storedFiles
          rw [hm]
          exact List.mem_map.mpr ⟨f, hf, rfl⟩
        · show ProperAncestor (storedFiles info) (info.name :: f.path)
          rw [this]
          exact stored_ancestor hm hq
    refine ⟨t1, h3, ?_, ?_, ?_, ?_⟩
    · rw [hpa]
      refine ⟨?_, ?_, ?_, ?_, ?_, ?_⟩
      · intro e he
        obtain ⟨f, hf, rfl⟩ := List.mem_map.mp he
        obtain ⟨j1, j2⟩ := joinPath_last f.path (hpl f hf).1 (hpl f hf).2
        exact getLast?_append_name _ j1 j2
      · intro e he
        obtain ⟨f, hf, rfl⟩ := List.mem_map.mp he
        exact locate_built base b info.name files hs.name f hf (hpl f hf).1 (hpl f hf).2 t t1 hb hdirs h1
      · intro e he
        obtain ⟨f, hf, rfl⟩ := List.mem_map.mp he
        simp
      · intro e he
        obtain ⟨f, hf, rfl⟩ := List.mem_map.mp he
        rw [hfree f hf]
        simp
      · intro e he e' he' hee
        obtain ⟨f, hf, rfl⟩ := List.mem_map.mp he
        obtain ⟨g, hg, rfl⟩ := List.mem_map.mp he'
        have hn := congrArg names hee
        dsimp only at hn
        rw [names_multiPath base info.name hs.name f (hpl f hf).2,
          names_multiPath base info.name hs.name g (hpl g hg).2] at hn
        have hfg := (List.cons.inj (List.append_cancel_left hn)).2
        dsimp only at hee
        rw [hee, hfg]
      · intro e he e' he' hee
        obtain ⟨f, hf, rfl⟩ := List.mem_map.mp he
        obtain ⟨g, hg, rfl⟩ := List.mem_map.mp he'
        have hfg := (List.cons.inj (List.append_cancel_left hee)).2
        unfold MultiFile.path
        rw [hfg]
    · intro e he
      rw [hpa] at he
      obtain ⟨f, hf, rfl⟩ := List.mem_map.mp he
      exact hfree f hf
    · intro q hq
      obtain ⟨q', rfl, hq'⟩ := ancestor_stored hm q hq
      apply h1
      rcases hq' with rfl | hq'
      · exact .inl rfl
      · exact .inr ⟨q', hq', rfl⟩
    · intro l hl
      apply h2
      rintro (rfl | ⟨q, hq, rfl⟩)
      · obtain ⟨_, _, hn, _⟩ := hs.fits
        have : files ≠ [] := by
          intro h0
          have := (stored_lengths hm).1
          rw [h0] at this
          rw [this] at hn
          simp [totalLength] at hn
        obtain ⟨f, hf⟩ := List.exists_mem_of_ne_nil files this
        exact hl [info.name] (stored_top hm f hf (hpl f hf).1) rfl
      · exact hl _ (stored_ancestor hm hq) rfl

/-! ## Histories -/

theorem segs_files (files : List TorrentFile) (s e : Nat) (hse : s ≤ e) (segs : List FileWithBounds)
    (h : filesInBounds files s e = .ok segs) : ∀ seg ∈ segs, seg.file ∈ files := by
  rw [filesInBounds_eq files s e hse] at h
  rw [← Res.ok.inj h]
  intro seg hseg
  exact (segsOf_order s e 0 files).subset (List.mem_map_of_mem hseg)

theorem Alike.multiWrite {σ : Type} {R : σ → Disk → Prop} {P : Bytes → Prop} {a : FileSystem σ} {o : Bytes → Bool}
    (h : Alike R P a o) (base : Bytes) (info : Info) (files : List TorrentFile)
    (hp : ∀ f ∈ files, P (MultiFile.path base info.name f)) (idx : Nat) (data : List Bytes) :
    Sim R (a.multiWrite base info files idx data) (MultiFile.writePiece o base info files idx data) := by
  unfold FileSystem.multiWrite MultiFile.writePiece
  have hse : idx * info.pieceLength ≤ (idx + 1) * info.pieceLength := Nat.mul_le_mul_right _ (by omega)
  have hx := filesInBounds_eq files _ _ hse
  dsimp only
  rw [hx]
  intro s t hr
  exact h.writeFiles base info.name data _ (fun seg hseg => hp _ (segs_files files _ _ hse _ hx seg hseg)) s t hr

theorem Alike.multiRead {σ : Type} {R : σ → Disk → Prop} {P : Bytes → Prop} {a : FileSystem σ} {o : Bytes → Bool}
    (h : Alike R P a o) (base : Bytes) (info : Info) (files : List TorrentFile)
    (hp : ∀ f ∈ files, P (MultiFile.path base info.name f)) (i b l : Nat) (buf : Bytes) :
    Sim R (a.multiRead base info files i b l buf) (MultiFile.readBlock o base info files i b l buf) := by
  unfold FileSystem.multiRead MultiFile.readBlock
  have hse : i * info.pieceLength + b ≤ i * info.pieceLength + b + l := by omega
  have hx := filesInBounds_eq files _ _ hse
  dsimp only
  rw [hx]
  intro s t hr
  exact h.readFiles base info.name _ (fun seg hseg => hp _ (segs_files files _ _ hse _ hx seg hseg)) buf s t hr

/-- What has happened in the tree has happened to the files by path. -/
theorem history_multi (allowed : Loc → Bool) (ha : ∀ l, allowed l = true) (base : Bytes) (b : Loc) (info : Info)
    (files : List TorrentFile) (hm : info.mode = .multi files) (hs : Storable info) (t1 : Tree)
    (hp : Paths t1 (pathsOf base b info)) (hnone : ∀ e ∈ pathsOf base b info, t1.get? e.2 = none) (ops : List FsOp) (t' : Tree)
    (h : StoreHistory allowed base info t1 ops t') :
    ∃ d, MultiHistory (fun _ => true) base info files [] ops d ∧ Mirror t1 (pathsOf base b info) t' d := by
  have hal := mirror_alike allowed ha t1 _ hp
  have hpa : pathsOf base b info = files.map fun f => (MultiFile.path base info.name f, b ++ info.name :: f.path) := by
    unfold pathsOf; rw [hm]
  have hin : ∀ f ∈ files, ∃ l, (MultiFile.path base info.name f, l) ∈ pathsOf base b info := by
    intro f hf
    rw [hpa]
    exact ⟨_, List.mem_map.mpr ⟨f, hf, rfl⟩⟩
  induction h with
  | nil => exact ⟨[], .nil _, fun _ => Iff.rfl, fun e he => hnone e he, fun _ _ => rfl⟩
  | @write t ops idx data hh hv ih =>
    obtain ⟨d, hd, hmir⟩ := ih
    have hsim := hal.multiWrite base info files hin idx data _ _ hmir
    have hv' : ValidPiece info.pieces.length info.pieceLength (totalLength files) idx data := by
      have := hv
      unfold PieceOf at this
      rw [(stored_lengths hm).1] at this
      exact this
    have hok := C52_write_succeeds_partial (fun _ => true) base info files (storable_setting hs hm base) (fun _ _ => rfl) idx data hv' d
    refine ⟨_, .write hd hv' (Prod.ext rfl hok), ?_⟩
    unfold FS.writePiece
    rw [hm]
    exact hsim.1
  | @read t ops i c l buf hh ih =>
    obtain ⟨d, hd, hmir⟩ := ih
    have hsim := hal.multiRead base info files hin i c l buf _ _ hmir
    refine ⟨_, .read hd (Prod.ext rfl rfl), ?_⟩
    unfold FS.readBlock
    rw [hm]
    exact hsim.1

theorem history_single (allowed : Loc → Bool) (ha : ∀ l, allowed l = true) (base : Bytes) (b : Loc) (info : Info)
    (len : Nat) (hm : info.mode = .single len) (hf : EnoughPieces info.pieces.length info.pieceLength len) (t1 : Tree)
    (hp : Paths t1 (pathsOf base b info)) (hnone : ∀ e ∈ pathsOf base b info, t1.get? e.2 = none) (ops : List FsOp) (t' : Tree)
    (h : StoreHistory allowed base info t1 ops t') :
    ∃ d, SingleHistory (fun _ => true) base info len [] ops d ∧ Mirror t1 (pathsOf base b info) t' d := by
  have hal := mirror_alike allowed ha t1 _ hp
  have hin : ∃ l, (SingleFile.path base info, l) ∈ pathsOf base b info := by
    unfold pathsOf
    rw [hm]
    exact ⟨_, List.mem_singleton.mpr rfl⟩
  induction h with
  | nil => exact ⟨[], .nil _, fun _ => Iff.rfl, fun e he => hnone e he, fun _ _ => rfl⟩
  | @write t ops idx data hh hv ih =>
    obtain ⟨d, hd, hmir⟩ := ih
    have hsim := hal.singleWrite base info hin idx data _ _ hmir
    have hv' : ValidPiece info.pieces.length info.pieceLength len idx data := by
      have := hv
      unfold PieceOf storedFiles totalLength at this
      rw [hm] at this
      simpa using this
    have hok := C50_write_succeeds (fun _ => true) base info len hm hf rfl idx data hv' d
    refine ⟨_, .write hd hv' (Prod.ext rfl hok), ?_⟩
    unfold FS.writePiece
    rw [hm]
    exact hsim.1
  | @read t ops i c l buf hh ih =>
    obtain ⟨d, hd, hmir⟩ := ih
    have hsim := hal.singleRead base info hin i c l buf _ _ hmir
    refine ⟨_, .read hd (Prod.ext rfl rfl), ?_⟩
    unfold FS.readBlock
    rw [hm]
    exact hsim.1

/-- C128, for the torrents that can be stored: in a directory that has nothing of the torrent's name, the storage is
created; then, whatever was read and written before, every piece of the torrent can be written, what was written can be
read, and when all pieces of some contents have been written, the files with these contents and their directories are
there, and nothing else has changed. -/
theorem C128_fresh_partial (allowed : Loc → Bool) (ha : ∀ l, allowed l = true) (base : Bytes) (b : Loc) (info : Info)
    (t : Tree) (hb : LeadsTo t base b) (hempty : ∀ q, t.get? (b ++ info.name :: q) = none) (hs : Storable info)
    (order : List Bytes) (ho : ∀ files, info.mode = .multi files → SetOrder order (inserted files)) :
    ∃ t1, FS.new allowed base info order t = (t1, .ok ()) ∧ ∀ ops t', StoreHistory allowed base info t1 ops t' →
      (∀ idx data, PieceOf info idx data → (FS.writePiece allowed base info idx data t').2 = .ok ()) ∧
      (∀ index begin_ length buf, length ≤ buf.length →
        index * info.pieceLength + begin_ + length ≤ totalLength (storedFiles info) →
        (∀ i, i < length → (torrentByte info.pieceLength ops (index * info.pieceLength + begin_ + i)).isSome) →
        ∃ buf', (FS.readBlock allowed base info index begin_ length buf t').2 = .ok buf' ∧
          ReadsBack info.pieceLength ops (index * info.pieceLength + begin_) length buf buf') ∧
      (∀ content, content.length = totalLength (storedFiles info) → AllFrom info.pieceLength content ops →
        AllWritten info.pieces.length ops → Stored info content b t t') := by
  obtain ⟨t1, h1, hp, hnone, hdir, hrest⟩ := start_ok allowed ha base b info t hb hempty hs order ho
  refine ⟨t1, h1, fun ops t' h => ?_⟩
  have hal := mirror_alike allowed ha t1 _ hp
  have hrest' : ∀ l, (∀ f ∈ storedFiles info, l ≠ b ++ f.path) → l ∉ (pathsOf base b info).map (·.2) := by
    intro l hl hc
    rw [pathsOf_locs] at hc
    obtain ⟨f, hf, rfl⟩ := List.mem_map.mp hc
    exact hl f hf rfl
  cases hm : info.mode with
  | multi files =>
    obtain ⟨e1, e2, e3⟩ := stored_lengths hm
    have hset := storable_setting hs hm base
    have hpa : pathsOf base b info = files.map fun f => (MultiFile.path base info.name f, b ++ info.name :: f.path) := by
      unfold pathsOf; rw [hm]
    have hin : ∀ f ∈ files, ∃ l, (MultiFile.path base info.name f, l) ∈ pathsOf base b info := by
      intro f hf
      rw [hpa]
      exact ⟨_, List.mem_map.mpr ⟨f, hf, rfl⟩⟩
    obtain ⟨d, hd, hmir⟩ := history_multi allowed ha base b info files hm hs t1 hp hnone ops t' h
    refine ⟨fun idx data hv => ?_, fun index begin_ length buf hbuf hend hw => ?_, fun content hc hfrom hall => ?_⟩
    · unfold PieceOf at hv
      rw [e1] at hv
      unfold FS.writePiece
      rw [hm]
      exact (hal.multiWrite base info files hin idx data _ _ hmir).2.trans
        (C52_write_succeeds_partial (fun _ => true) base info files hset (fun _ _ => rfl) idx data hv d)
    · rw [e1] at hend
      obtain ⟨d', buf', hr, hback⟩ := C52_read_back_partial (fun _ => true) base info files hset.fits.1 hset.paths
        (fun _ _ => rfl) [] d ops hd index begin_ length buf hbuf hend hw
      refine ⟨buf', ?_, hback⟩
      unfold FS.readBlock
      rw [hm]
      have := (hal.multiRead base info files hin index begin_ length buf _ _ hmir).2
      rw [hr] at this
      exact this
    · refine ⟨fun i hi => ?_, fun q hq => (hmir.dirs _).mpr (hdir q hq), fun l h2 h3 => ?_⟩
      · have hi' : i < files.length := by omega
        have hcon := C53_complete_partial (fun _ => true) base info files hset content (hc.trans e1) [] d ops
          (fun _ _ => rfl) hd hfrom hall i hi'
        have hf := hmir.files (MultiFile.path base info.name files[i], b ++ info.name :: files[i].path) (by
          rw [hpa]; exact List.mem_map.mpr ⟨_, List.getElem_mem hi', rfl⟩)
        dsimp only at hf
        rw [hcon] at hf
        have hst : (storedFiles info)[i] = ⟨info.name :: files[i].path, files[i].length⟩ := by
          unfold storedFiles; simp [hm]
        unfold fileBytes at hf ⊢
        rw [e3, hst]
        exact hf
      · rw [hmir.rest l (hrest' l h2), hrest l h3]
  | single len =>
    have hst : storedFiles info = [⟨[info.name], len⟩] := by unfold storedFiles; rw [hm]
    have htot : totalLength (storedFiles info) = len := by rw [hst]; simp [totalLength]
    have hfits : EnoughPieces info.pieces.length info.pieceLength len := htot ▸ hs.fits
    have hmod := hs.single len hm
    have hin : ∃ l, (SingleFile.path base info, l) ∈ pathsOf base b info := by
      unfold pathsOf
      rw [hm]
      exact ⟨_, List.mem_singleton.mpr rfl⟩
    obtain ⟨d, hd, hmir⟩ := history_single allowed ha base b info len hm hfits t1 hp hnone ops t' h
    refine ⟨fun idx data hv => ?_, fun index begin_ length buf hbuf hend hw => ?_, fun content hc hfrom hall => ?_⟩
    · unfold PieceOf at hv
      rw [htot] at hv
      unfold FS.writePiece
      rw [hm]
      exact (hal.singleWrite base info hin idx data _ _ hmir).2.trans
        (C50_write_succeeds (fun _ => true) base info len hm hfits rfl idx data hv d)
    · rw [htot] at hend
      obtain ⟨d', buf', hr, hback⟩ := C50_read_back_partial (fun _ => true) base info len hm hfits
        rfl [] d ops hd index begin_ length buf hbuf hend (fun hz => absurd hz hmod) hw
      refine ⟨buf', ?_, hback⟩
      unfold FS.readBlock
      rw [hm]
      have := (hal.singleRead base info hin index begin_ length buf _ _ hmir).2
      rw [hr] at this
      exact this
    · refine ⟨fun i hi => ?_, fun q hq => (hmir.dirs _).mpr (hdir q hq), fun l h2 h3 => ?_⟩
      · have hi0 : i = 0 := by rw [hst] at hi; simpa using hi
        subst hi0
        have hcon := C53_single_complete_partial (fun _ => true) base info len hm hfits hmod content (hc.trans htot) [] d ops
          rfl hd hfrom hall
        have hf := hmir.files (SingleFile.path base info, b ++ [info.name]) (by
          unfold pathsOf; rw [hm]; exact List.mem_singleton.mpr rfl)
        dsimp only at hf
        rw [hcon] at hf
        unfold fileBytes fileStart
        simp only [hst, List.take_zero, List.map_nil, List.sum_nil, List.drop_zero, List.getElem_cons_zero]
        rw [List.take_of_length_le (by omega)]
        exact hf
      · rw [hmir.rest l (hrest' l h2), hrest l h3]

/-! ## Torrents that are accepted and cannot be stored -/

/-- C128 fails: when a file of the torrent has the path of a directory of another, the storage is created all the same; but
then, whatever has been read and written, no write of the piece in which this file begins succeeds. -/
theorem C128_clash_violated (allowed : Loc → Bool) (ha : ∀ l, allowed l = true) (base : Bytes) (b : Loc) (info : Info)
    (files : List TorrentFile) (hm : info.mode = .multi files) (hname : NormalName info.name) (hn : NormalFiles files)
    (t : Tree) (hb : LeadsTo t base b) (hempty : ∀ q, t.get? (b ++ info.name :: q) = none)
    (order : List Bytes) (ho : SetOrder order (inserted files)) (i : Nat) (hi : i < files.length)
    (hlen : 0 < files[i].length) (hpl : 0 < info.pieceLength) (hclash : ProperAncestor files files[i].path) :
    ∃ t1, FS.new allowed base info order t = (t1, .ok ()) ∧ ∀ ops t', StoreHistory allowed base info t1 ops t' →
      ∀ data, (FS.writePiece allowed base info (fileStart files i / info.pieceLength) data t').2 ≠ .ok () := by
  obtain ⟨t1, _, h1, h2, h3⟩ := C54_tree base info.name hname files hn b t hb hempty allowed ha order ho
  refine ⟨t1, by unfold FS.new; rw [hm]; exact h3, fun ops t' h data => ?_⟩
  have hdirs : ∀ l, t.get? l = some .dir → t1.get? l = some .dir := by
    intro l hl
    by_cases hc : l = b ++ [info.name] ∨ (∃ q, ProperAncestor files q ∧ l = b ++ info.name :: q)
    · exact h1 l hc
    · rw [h2 l hc]; exact hl
  have hkept := dirs_kept allowed t1
  have hkeep : ∀ l, t1.get? l = some .dir → t'.get? l = some .dir := by
    clear h2 h3 hdirs hempty
    induction h with
    | nil => exact fun _ h => h
    | @write t2 ops idx data hh hv ih =>
      unfold FS.writePiece FileSystem.multiWrite
      rw [hm]
      exact Keeps.bind (Keeps.lift _) (fun segs => hkept.writeFiles base info.name data segs) t2 ih
    | @read t2 ops i c l buf hh ih =>
      unfold FS.readBlock FileSystem.multiRead
      rw [hm]
      exact Keeps.bind (Keeps.lift _) (fun segs => hkept.readFiles base info.name segs buf) t2 ih
  have hin : files[i] ∈ files := List.getElem_mem hi
  have hne : files[i].path ≠ [] := hclash.1
  have hloc := locate_built base b info.name files hname files[i] hin hne (hn _ hin) t t1 hb hdirs h1
  have hdir : t1.get? (b ++ info.name :: files[i].path) = some .dir := h1 _ (.inr ⟨_, hclash, rfl⟩)
  obtain ⟨p, c, hp⟩ : ∃ p c, files[i].path = p ++ [c] :=
    ⟨files[i].path.dropLast, files[i].path.getLast hne, (List.dropLast_concat_getLast hne).symm⟩
  have hno : ∀ s : Tree, (∀ l, t1.get? l = some .dir → s.get? l = some .dir) →
      ((treeFs allowed).openFile (MultiFile.path base info.name files[i]) s).2 ≠ .ok () := by
    intro s hs
    have hls : s.locate (MultiFile.path base info.name files[i]) = some (b ++ info.name :: files[i].path) :=
      locate_built base b info.name files hname files[i] hin hne (hn _ hin) t s hb (fun l hl => hs l (hdirs l hl))
        (fun l hl => hs l (h1 l hl))
    show (Tree.openFile allowed (MultiFile.path base info.name files[i]) s).2 ≠ _
    unfold Tree.openFile
    split
    · simp
    · simp only [hls, hs _ hdir]
      split <;> simp
  have hse : fileStart files i / info.pieceLength * info.pieceLength ≤
      (fileStart files i / info.pieceLength + 1) * info.pieceLength := Nat.mul_le_mul_right _ (by omega)
  have hlo : fileStart files i / info.pieceLength * info.pieceLength ≤ fileStart files i := Nat.div_mul_le_self _ _
  have hhi : fileStart files i < (fileStart files i / info.pieceLength + 1) * info.pieceLength := by
    have := Nat.lt_div_mul_add (a := fileStart files i) hpl
    rw [Nat.add_mul, Nat.one_mul]
    exact this
  unfold FS.writePiece FileSystem.multiWrite
  rw [hm]
  dsimp only
  rw [filesInBounds_eq files _ _ hse]
  refine hkept.writeFiles_fails base info.name data _ _
    ((segsOf_touched _ _ 0 files _).mpr ⟨i, hi, ?_, rfl⟩) hno t' hkeep
  unfold FilesInBounds.touches
  simp only [Nat.zero_add, Bool.or_eq_true, Bool.and_eq_true, decide_eq_true_eq]
  omega

/-- C128 fails also when two files of the torrent with different contents have the same path: the storage is created, and
whatever is done, the contents of the torrent are never stored. -/
theorem C128_twice_violated (allowed : Loc → Bool) (ha : ∀ l, allowed l = true) (base : Bytes) (b : Loc) (info : Info)
    (files : List TorrentFile) (hm : info.mode = .multi files) (hname : NormalName info.name) (hn : NormalFiles files)
    (t : Tree) (hb : LeadsTo t base b) (hempty : ∀ q, t.get? (b ++ info.name :: q) = none)
    (order : List Bytes) (ho : SetOrder order (inserted files)) (i j : Nat) (hi : i < files.length) (hj : j < files.length)
    (hp : files[i].path = files[j].path) (content : Bytes) (hc : fileBytes files content i hi ≠ fileBytes files content j hj) :
    ∃ t1, FS.new allowed base info order t = (t1, .ok ()) ∧ ∀ ops t', StoreHistory allowed base info t1 ops t' →
      ¬ Stored info content b t t' := by
  obtain ⟨t1, _, _, _, h3⟩ := C54_tree base info.name hname files hn b t hb hempty allowed ha order ho
  refine ⟨t1, by unfold FS.new; rw [hm]; exact h3, fun ops t' _ hst => hc ?_⟩
  obtain ⟨e1, e2, e3⟩ := stored_lengths hm
  have hs : ∀ k (hk : k < files.length), (storedFiles info)[k]'(by omega) = ⟨info.name :: files[k].path, files[k].length⟩ := by
    intro k hk; unfold storedFiles; simp [hm]
  have h1 := hst.files i (by omega)
  have h2 := hst.files j (by omega)
  rw [hs i hi] at h1
  rw [hs j hj] at h2
  rw [hp] at h1
  have he := h1.symm.trans h2
  unfold fileBytes at he ⊢
  rw [hs i hi, hs j hj, e3, e3] at he
  simpa using he

/-! ## Verified pieces -/

/-- C129: the contents have the hashes that the torrent records. Pieces that are written when the hash of their data is
the recorded one make up the contents, once all are there; or else data that differ from a piece of the contents but have
the same hash were written. -/
theorem C129_verified_contents (sha1 : Bytes → ID) (allowed : Loc → Bool) (ha : ∀ l, allowed l = true) (base : Bytes)
    (b : Loc) (info : Info) (t : Tree) (hb : LeadsTo t base b) (hempty : ∀ q, t.get? (b ++ info.name :: q) = none)
    (hs : Storable info) (order : List Bytes) (ho : ∀ files, info.mode = .multi files → SetOrder order (inserted files))
    (content : Bytes) (hc : content.length = totalLength (storedFiles info))
    (hash : ∀ idx (h : idx < info.pieces.length), sha1 ((content.drop (idx * info.pieceLength)).take info.pieceLength) =
      info.pieces[idx]) :
    ∃ t1, FS.new allowed base info order t = (t1, .ok ()) ∧ ∀ ops t', StoreHistory allowed base info t1 ops t' →
      (∀ idx data, FsOp.write idx data ∈ ops → info.pieces[idx]? = some (Torrent.pieceHash sha1 data)) →
      AllWritten info.pieces.length ops →
      Stored info content b t t' ∨
        ∃ idx data, FsOp.write idx data ∈ ops ∧
          data.flatten ≠ (content.drop (idx * info.pieceLength)).take info.pieceLength ∧
          sha1 data.flatten = sha1 ((content.drop (idx * info.pieceLength)).take info.pieceLength) := by
  obtain ⟨t1, h1, h2⟩ := C128_fresh_partial allowed ha base b info t hb hempty hs order ho
  refine ⟨t1, h1, fun ops t' h hver hall => ?_⟩
  by_cases hcol : ∃ idx data, FsOp.write idx data ∈ ops ∧
      data.flatten ≠ (content.drop (idx * info.pieceLength)).take info.pieceLength ∧
      sha1 data.flatten = sha1 ((content.drop (idx * info.pieceLength)).take info.pieceLength)
  · exact .inr hcol
  · refine .inl ((h2 ops t' h).2.2 content hc ?_ hall)
    intro idx data hw
    have hv := hver idx data hw
    obtain ⟨hlt, hv⟩ := List.getElem?_eq_some_iff.mp hv
    rw [C63_piece_hash] at hv
    have heq : data.flatten = (content.drop (idx * info.pieceLength)).take info.pieceLength := by
      refine Classical.byContradiction fun hne => hcol ⟨idx, data, hw, hne, ?_⟩
      rw [hash idx hlt, hv]
    rw [heq]
    refine List.take_of_length_le ?_
    unfold pieceSize
    simp

/-! ## The statements are not about nothing -/

/-- Two files in a directory of their own; the second piece has the end of the one and the other file. -/
def demoStored : Info := ⟨ascii "t", 4, [demoSha1 (ascii "abcd"), demoSha1 (ascii "e")],
  .multi [⟨[ascii "a", ascii "x"], 3⟩, ⟨[ascii "y"], 2⟩]⟩

theorem demoStored_storable : Storable demoStored where
  name := by unfold NormalName; decide
  paths := by
    intro files h f hf
    cases h
    revert f
    unfold NormalName
    decide
  distinct := by decide
  noClash := by
    rintro f hf ⟨-, g, hg, rest, hr, he⟩
    have hf' : f = ⟨[ascii "t", ascii "a", ascii "x"], 3⟩ ∨ f = ⟨[ascii "t", ascii "y"], 2⟩ := by
      have : f ∈ [(⟨[ascii "t", ascii "a", ascii "x"], 3⟩ : TorrentFile), ⟨[ascii "t", ascii "y"], 2⟩] := hf
      simpa using this
    have hg' : g = ⟨[ascii "t", ascii "a", ascii "x"], 3⟩ ∨ g = ⟨[ascii "t", ascii "y"], 2⟩ := by
      have : g ∈ [(⟨[ascii "t", ascii "a", ascii "x"], 3⟩ : TorrentFile), ⟨[ascii "t", ascii "y"], 2⟩] := hg
      simpa using this
    have hay : ascii "a" ≠ ascii "y" := by decide
    rcases hf' with rfl | rfl <;> rcases hg' with rfl | rfl
    · simp only [List.cons_append, List.nil_append, List.cons.injEq, true_and] at he
      exact hr he.symm
    · simp at he
    · simp only [List.cons_append, List.nil_append, List.cons.injEq, true_and] at he
      exact hay he.1
    · simp only [List.cons_append, List.nil_append, List.cons.injEq, true_and] at he
      exact hr he.symm
  fits := by unfold EnoughPieces; decide
  empty := by decide
  single := by intro len h; cases h

/-- The directory `/d`, which is empty. -/
def demoDir : Tree := [([ascii "d"], .dir)]

example : LeadsTo demoDir (ascii "/d") [ascii "d"] := by unfold LeadsTo; decide

/-- The order of the directories does not matter here, as there is but one. -/
example : SetOrder [ascii "a/"] (inserted [⟨[ascii "a", ascii "x"], 3⟩, ⟨[ascii "y"], 2⟩]) := by
  have h : inserted [⟨[ascii "a", ascii "x"], 3⟩, ⟨[ascii "y"], 2⟩] = [ascii "a/"] := by decide
  rw [h]
  exact ⟨by decide, fun _ => Iff.rfl⟩

/-- The storage is created, the second piece is written before the first, and the contents are there. -/
example :
    (FS.new (fun _ => true) (ascii "/d") demoStored [ascii "a/"] demoDir).2 = .ok () ∧
    let t1 := (FS.new (fun _ => true) (ascii "/d") demoStored [ascii "a/"] demoDir).1
    let t2 := (FS.writePiece (fun _ => true) (ascii "/d") demoStored 1 [ascii "e"] t1).1
    let t3 := (FS.writePiece (fun _ => true) (ascii "/d") demoStored 0 [ascii "abcd"] t2).1
    t3.get? [ascii "d", ascii "t", ascii "a", ascii "x"] = some (.file (ascii "abc")) ∧
    t3.get? [ascii "d", ascii "t", ascii "y"] = some (.file (ascii "de")) ∧
    (FS.readBlock (fun _ => true) (ascii "/d") demoStored 0 1 4 (ascii "....") t3).2 = .ok (ascii "bcde") := by
  decide +kernel

/-- A torrent with a file `a` and a file `a/x`. -/
def demoClash : Bytes := ascii ("d8:announce8:http://b4:infod5:filesld6:lengthi1e4:pathl1:aee" ++
  "d6:lengthi1e4:pathl1:a1:xeee4:name1:t12:piece lengthi4e6:pieces20:aaaaaaaaaaaaaaaaaaaaee")

/-- It is accepted, and it is as `C128_clash_violated` supposes. -/
example : ∃ t files, Torrent.fromBuf demoSha1 (fun _ => true) demoClash = .ok t ∧ t.info.mode = .multi files ∧
    ∃ h : 0 < files.length, 0 < files[0].length ∧ 0 < t.info.pieceLength ∧ ProperAncestor files files[0].path := by
  have h : (match Torrent.fromBuf demoSha1 (fun _ => true) demoClash with
      | .ok t => some (t.info.mode, t.info.pieceLength)
      | _ => none) = some (.multi [⟨[ascii "a"], 1⟩, ⟨[ascii "a", ascii "x"], 1⟩], 4) := by decide +kernel
  split at h
  · rename_i t ht
    obtain ⟨h1, h2⟩ := Prod.mk.inj (Option.some.inj h)
    exact ⟨t, _, ht, h1, by decide, by decide, by rw [h2]; decide, by decide, ⟨[ascii "a", ascii "x"], 1⟩, by simp,
      [ascii "x"], by decide, rfl⟩
  · simp at h

/-- A torrent with two files `a`. -/
def demoTwice : Bytes := ascii ("d8:announce8:http://b4:infod5:filesld6:lengthi1e4:pathl1:aee" ++
  "d6:lengthi1e4:pathl1:aeee4:name1:t12:piece lengthi4e6:pieces20:aaaaaaaaaaaaaaaaaaaaee")

/-- It is accepted, and with different contents it is as `C128_twice_violated` supposes. -/
example : ∃ t files, Torrent.fromBuf demoSha1 (fun _ => true) demoTwice = .ok t ∧ t.info.mode = .multi files ∧
    ∃ (hi : 0 < files.length) (hj : 1 < files.length), files[0].path = files[1].path ∧
      fileBytes files (ascii "xy") 0 hi ≠ fileBytes files (ascii "xy") 1 hj := by
  have h : (match Torrent.fromBuf demoSha1 (fun _ => true) demoTwice with
      | .ok t => some t.info.mode
      | _ => none) = some (.multi [⟨[ascii "a"], 1⟩, ⟨[ascii "a"], 1⟩]) := by decide +kernel
  split at h
  · rename_i t ht
    exact ⟨t, _, ht, Option.some.inj h, by decide, by decide, by decide, by decide⟩
  · simp at h

/-- The hashes of `demoStored` are those of the contents `abcde`, and the two pieces of the history above pass. -/
example : (∀ idx (h : idx < demoStored.pieces.length),
    demoSha1 (((ascii "abcde").drop (idx * demoStored.pieceLength)).take demoStored.pieceLength) = demoStored.pieces[idx]) ∧
    demoStored.pieces[1]? = some (Torrent.pieceHash demoSha1 [ascii "e"]) ∧
    demoStored.pieces[0]? = some (Torrent.pieceHash demoSha1 [ascii "abcd"]) := by decide +kernel

end Nargun
