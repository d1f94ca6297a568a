import Verif.Props.Storage
import Verif.Spec.OpenFiles
import Verif.Lemmas.OpenFiles
import Verif.Lemmas.Settled

/-! # C138, C139: failing writes, and files that are closed too early -/

namespace Nargun

open Spec

theorem joinPath_eq (p : List Bytes) : MultiFile.joinPath p = (Spec.ascii "/").intercalate p := by
  induction p with
  | nil => rfl
  | cons c cs ih =>
    cases cs with
    | nil => simp [MultiFile.joinPath, List.intercalate]
    | cons x xs =>
      unfold MultiFile.joinPath
      rw [ih]
      simp [List.intercalate]

theorem filePath_single (base : Bytes) (info : Info) (len : Nat) :
    filePath base ⟨[info.name], len⟩ = SingleFile.path base info := by
  unfold filePath SingleFile.path
  simp [List.intercalate]

theorem filePath_multi (base name : Bytes) (f : TorrentFile) (hf : f.path ≠ []) :
    filePath base ⟨name :: f.path, f.length⟩ = MultiFile.path base name f := by
  unfold filePath MultiFile.path
  rw [← joinPath_eq]
  cases hp : f.path with
  | nil => exact absurd hp hf
  | cons x xs => simp [MultiFile.joinPath]

theorem upholds_new (dev : Device) (ps : List Bytes) (d : Disk) : Upholds dev ps (OpenFiles.new d) d :=
  ⟨⟨List.nodup_nil, by simp [OpenFiles.new, Map.keys], by simp [OpenFiles.new], by simp [OpenFiles.new],
    by simp [OpenFiles.new], by simp [OpenFiles.new]⟩, fun _ => rfl⟩

theorem device_multi (dev : Device) (hok : ∀ n, dev.fault n = none) (base : Bytes) (info : Info) (files : List TorrentFile)
    (hm : info.mode = .multi files) (hs : Storable info) (hlen : files.length ≤ 16) (d0 : Disk)
    (ho : ∀ f ∈ files, dev.openable (MultiFile.path base info.name f) = true) (ops : List FsOp) (s : OpenFiles)
    (h : DeviceHistory dev base info (OpenFiles.new d0) ops s) :
    ∃ d, MultiHistory dev.openable base info files d0 ops d ∧ Upholds dev (files.map (MultiFile.path base info.name)) s d := by
  have hal := handles_alike dev hok (files.map (MultiFile.path base info.name)) (by simpa using hlen)
  have hin : ∀ f ∈ files, MultiFile.path base info.name f ∈ files.map (MultiFile.path base info.name) :=
    fun f hf => List.mem_map_of_mem hf
  generalize hs0 : OpenFiles.new d0 = s0 at h
  induction h with
  | nil => subst hs0; exact ⟨d0, .nil _, upholds_new _ _ _⟩
  | @write s ops idx data hh hv ih =>
    obtain ⟨d, hd, hup⟩ := ih
    have hsim := hal.multiWrite base info files hin idx data _ _ hup
    have hv' : ValidPiece info.pieces.length info.pieceLength (totalLength files) idx data := by
      have := hv
      unfold PieceOf at this
      rw [(stored_lengths hm).1] at this
      exact this
    have hw := C52_write_succeeds_partial dev.openable base info files (storable_setting hs hm base) ho idx data hv' d
    refine ⟨_, .write hd hv' (Prod.ext rfl hw), ?_⟩
    unfold Device.writePiece
    rw [hm]
    exact hsim.1
  | @read s ops i c l buf hh ih =>
    obtain ⟨d, hd, hup⟩ := ih
    have hsim := hal.multiRead base info files hin i c l buf _ _ hup
    refine ⟨_, .read hd (Prod.ext rfl rfl), ?_⟩
    unfold Device.readBlock
    rw [hm]
    exact hsim.1

theorem device_single (dev : Device) (hok : ∀ n, dev.fault n = none) (base : Bytes) (info : Info) (len : Nat)
    (hm : info.mode = .single len) (hf : EnoughPieces info.pieces.length info.pieceLength len) (d0 : Disk)
    (ho : dev.openable (SingleFile.path base info) = true) (ops : List FsOp) (s : OpenFiles)
    (h : DeviceHistory dev base info (OpenFiles.new d0) ops s) :
    ∃ d, SingleHistory dev.openable base info len d0 ops d ∧ Upholds dev [SingleFile.path base info] s d := by
  have hal := handles_alike dev hok [SingleFile.path base info] (by simp)
  have hin : SingleFile.path base info ∈ [SingleFile.path base info] := by simp
  generalize hs0 : OpenFiles.new d0 = s0 at h
  induction h with
  | nil => subst hs0; exact ⟨d0, .nil _, upholds_new _ _ _⟩
  | @write s ops idx data hh hv ih =>
    obtain ⟨d, hd, hup⟩ := ih
    have hsim := hal.singleWrite base info hin idx data _ _ hup
    have hv' : ValidPiece info.pieces.length info.pieceLength len idx data := by
      have := hv
      unfold PieceOf storedFiles totalLength at this
      rw [hm] at this
      simpa using this
    have hw := C50_write_succeeds dev.openable base info len hm hf ho idx data hv' d
    refine ⟨_, .write hd hv' (Prod.ext rfl hw), ?_⟩
    unfold Device.writePiece
    rw [hm]
    exact hsim.1
  | @read s ops i c l buf hh ih =>
    obtain ⟨d, hd, hup⟩ := ih
    have hsim := hal.singleRead base info hin i c l buf _ _ hup
    refine ⟨_, .read hd (Prod.ext rfl rfl), ?_⟩
    unfold Device.readBlock
    rw [hm]
    exact hsim.1

/-- C139, for the torrents that can be stored and have at most 16 files, on a device where no write fails: however long the
background threads take and whatever was read and written before, every piece of the torrent can be written, what was written
can be read at once, and when all pieces of some contents have been written and the background threads have done their work,
the files have these contents. Missing: torrents with more files (`C139_closed_violated`). -/
theorem C139_few_files_partial (dev : Device) (hok : ∀ n, dev.fault n = none) (base : Bytes) (info : Info) (hs : Storable info)
    (hfew : (storedFiles info).length ≤ 16) (d0 : Disk) (hv : Vacant dev base info d0) (ops : List FsOp) (s : OpenFiles)
    (h : DeviceHistory dev base info (OpenFiles.new d0) ops s) :
    (∀ idx data, PieceOf info idx data → (dev.writePiece base info idx data s).2 = .ok ()) ∧
    (∀ index begin_ length buf, length ≤ buf.length →
      index * info.pieceLength + begin_ + length ≤ totalLength (storedFiles info) →
      (∀ i, i < length → (torrentByte info.pieceLength ops (index * info.pieceLength + begin_ + i)).isSome) →
      ∃ buf', (dev.readBlock base info index begin_ length buf s).2 = .ok buf' ∧
        ReadsBack info.pieceLength ops (index * info.pieceLength + begin_) length buf buf') ∧
    (∀ content, content.length = totalLength (storedFiles info) → AllFrom info.pieceLength content ops →
      AllWritten info.pieces.length ops → ∀ i (hi : i < (storedFiles info).length),
        (s.settled dev).get? (filePath base (storedFiles info)[i]) = some (fileBytes (storedFiles info) content i hi)) := by
  cases hm : info.mode with
  | multi files =>
    obtain ⟨e1, e2, e3⟩ := stored_lengths hm
    have hset := storable_setting hs hm base
    have hin : ∀ f ∈ files, MultiFile.path base info.name f ∈ files.map (MultiFile.path base info.name) :=
      fun f hf => List.mem_map_of_mem hf
    have hpath : ∀ f ∈ files, filePath base ⟨info.name :: f.path, f.length⟩ = MultiFile.path base info.name f :=
      fun f hf => filePath_multi base info.name f (hs.paths files hm f hf).1
    have hmem : ∀ f ∈ files, ⟨info.name :: f.path, f.length⟩ ∈ storedFiles info := by
      intro f hf
      unfold storedFiles
      rw [hm]
      exact List.mem_map.mpr ⟨f, hf, rfl⟩
    have ho : ∀ f ∈ files, dev.openable (MultiFile.path base info.name f) = true := by
      intro f hf
      rw [← hpath f hf]
      exact hv.openable _ (hmem f hf)
    have h0 : ∀ f ∈ files, d0.get? (MultiFile.path base info.name f) = none := by
      intro f hf
      rw [← hpath f hf]
      exact hv.absent _ (hmem f hf)
    have hal := handles_alike dev hok (files.map (MultiFile.path base info.name)) (by rw [List.length_map]; omega)
    obtain ⟨d, hd, hup⟩ := device_multi dev hok base info files hm hs (by omega) d0 ho ops s h
    refine ⟨fun idx data hp => ?_, fun index begin_ length buf hbuf hend hw => ?_, fun content hc hfrom hall i hi => ?_⟩
    · unfold PieceOf at hp
      rw [e1] at hp
      unfold Device.writePiece
      rw [hm]
      exact (hal.multiWrite base info files hin idx data _ _ hup).2.trans
        (C52_write_succeeds_partial dev.openable base info files hset ho idx data hp d)
    · rw [e1] at hend
      obtain ⟨d', buf', hr, hback⟩ := C52_read_back_partial dev.openable base info files hset.fits.1 hset.paths
        ho d0 d ops hd index begin_ length buf hbuf hend hw
      refine ⟨buf', ?_, hback⟩
      unfold Device.readBlock
      rw [hm]
      have := (hal.multiRead base info files hin index begin_ length buf _ _ hup).2
      rw [hr] at this
      exact this
    · have hi' : i < files.length := by omega
      have hcon := C53_complete_partial dev.openable base info files hset content (hc.trans e1) d0 d ops
        h0 hd hfrom hall i hi'
      have hst : (storedFiles info)[i] = ⟨info.name :: files[i].path, files[i].length⟩ := by
        unfold storedFiles; simp [hm]
      rw [hup.2, hst, hpath _ (List.getElem_mem hi'), hcon]
      unfold fileBytes
      rw [e3, hst]
  | single len =>
    have hst : storedFiles info = [⟨[info.name], len⟩] := by unfold storedFiles; rw [hm]
    have htot : totalLength (storedFiles info) = len := by rw [hst]; simp [totalLength]
    have hfits : EnoughPieces info.pieces.length info.pieceLength len := htot ▸ hs.fits
    have hmod := hs.single len hm
    have ho : dev.openable (SingleFile.path base info) = true := by
      rw [← filePath_single base info len]
      exact hv.openable _ (by rw [hst]; simp)
    have h0 : d0.get? (SingleFile.path base info) = none := by
      rw [← filePath_single base info len]
      exact hv.absent _ (by rw [hst]; simp)
    have hal := handles_alike dev hok [SingleFile.path base info] (by simp)
    have hin : SingleFile.path base info ∈ [SingleFile.path base info] := by simp
    obtain ⟨d, hd, hup⟩ := device_single dev hok base info len hm hfits d0 ho ops s h
    refine ⟨fun idx data hp => ?_, fun index begin_ length buf hbuf hend hw => ?_, fun content hc hfrom hall i hi => ?_⟩
    · unfold PieceOf at hp
      rw [htot] at hp
      unfold Device.writePiece
      rw [hm]
      exact (hal.singleWrite base info hin idx data _ _ hup).2.trans
        (C50_write_succeeds dev.openable base info len hm hfits ho idx data hp d)
    · rw [htot] at hend
      obtain ⟨d', buf', hr, hback⟩ := C50_read_back_partial dev.openable base info len hm hfits
        ho d0 d ops hd index begin_ length buf hbuf hend (fun hz => absurd hz hmod) hw
      refine ⟨buf', ?_, hback⟩
      unfold Device.readBlock
      rw [hm]
      have := (hal.singleRead base info hin index begin_ length buf _ _ hup).2
      rw [hr] at this
      exact this
    · have hi0 : i = 0 := by rw [hst] at hi; simpa using hi
      subst hi0
      have hcon := C53_single_complete_partial dev.openable base info len hm hfits hmod content (hc.trans htot) d0 d ops
        h0 hd hfrom hall
      rw [hup.2]
      unfold fileBytes fileStart
      simp only [hst, List.take_zero, List.map_nil, List.sum_nil, List.drop_zero, List.getElem_cons_zero]
      rw [filePath_single, List.take_of_length_le (by omega)]
      exact hcon

/-! ## What is in the files in the end -/

/-- The parts of a piece of the contents are what is to be in the files. -/
theorem piece_fits (dev : Device) (base : Bytes) (info : Info) (files : List TorrentFile) (hset : MultiSetting base info files)
    (ho : ∀ f ∈ files, dev.openable (MultiFile.path base info.name f) = true) (content : Bytes)
    (hc : content.length = totalLength files) (C : Bytes → Bytes)
    (hC : ∀ i (hi : i < files.length), C (MultiFile.path base info.name files[i]) = fileBytes files content i hi)
    (idx : Nat) (data : List Bytes) (hv : ValidPiece info.pieces.length info.pieceLength (totalLength files) idx data)
    (hfrom : data.flatten.take (pieceSize info.pieceLength content.length idx) =
      (content.drop (idx * info.pieceLength)).take info.pieceLength) :
    ∀ seg ∈ segsOf (idx * info.pieceLength) ((idx + 1) * info.pieceLength) 0 files,
      Fit C (files.map (MultiFile.path base info.name)) dev base info.name data seg := by
  intro seg hseg
  obtain ⟨i, hi, ht, rfl⟩ := (segsOf_touched _ _ 0 files seg).mp hseg
  obtain ⟨hpl, -⟩ := hset.fits
  obtain ⟨-, hb, hsize, -⟩ := hv
  rw [touches_iff] at ht
  have hfl := fileStart_le files i hi
  have hmul : (idx + 1) * info.pieceLength = idx * info.pieceLength + info.pieceLength := by rw [Nat.add_mul]; omega
  have hz := hset.empty i hi
  rw [hmul]
  rw [hmul] at ht
  unfold pieceSize at hsize hfrom
  rw [Nat.zero_add] at ht ⊢
  generalize hs : idx * info.pieceLength = s at *
  generalize hst : fileStart files i = st at *
  refine ⟨List.mem_map_of_mem (List.getElem_mem hi), ho _ (List.getElem_mem hi), ?_⟩
  dsimp only
  have hempty : max s st - s = min (s + info.pieceLength) (st + files[i].length) - s →
      (max s st - s) % 16384 ≠ 0 := by
    intro he
    have hlen : files[i].length = 0 := by omega
    have hdiv : st / info.pieceLength = idx := by rw [div_eq_iff_range hpl, hmul]; omega
    have := hz hlen
    rw [mod_of_range hpl hdiv, hs] at this
    rw [show max s st - s = st - s by omega]
    exact this
  obtain ⟨parts, hp, hw⟩ := chunk_parts data (max s st - s) (min (s + info.pieceLength) (st + files[i].length) - s) hb
    (by omega) (by omega) hempty
  have hlen : parts.flatten.length = min (s + info.pieceLength) (st + files[i].length) - s - (max s st - s) := by
    rw [hp, List.length_take, List.length_drop]
    omega
  have hbytes : (fileBytes files content i hi).length = files[i].length := by
    unfold fileBytes
    rw [List.length_take, List.length_drop, hst]
    omega
  refine ⟨parts, hlen, ⟨?_, fun x hx1 hx2 => ?_⟩, hw _ _ _ _⟩
  · rw [hC i hi, hbytes, hlen]
    omega
  · rw [hlen] at hx2
    rw [hC i hi, hp]
    unfold fileBytes
    rw [hst, List.getElem?_take_of_lt (by omega), List.getElem?_take_of_lt (by omega), List.getElem?_drop,
      List.getElem?_drop]
    have hy : (data.flatten.take (min info.pieceLength (content.length - s)))[max s st - s + (x - (max s st - st))]? =
        ((content.drop s).take info.pieceLength)[max s st - s + (x - (max s st - st))]? := by rw [hfrom]
    rw [List.getElem?_take_of_lt (by omega), List.getElem?_take_of_lt (by omega), List.getElem?_drop] at hy
    rw [hy]
    congr 1
    omega

/-- What holds after any calls that write pieces of the contents. -/
theorem device_settles (dev : Device) (hok : ∀ n, dev.fault n = none) (base : Bytes) (info : Info) (files : List TorrentFile)
    (hm : info.mode = .multi files) (hset : MultiSetting base info files)
    (ho : ∀ f ∈ files, dev.openable (MultiFile.path base info.name f) = true) (content : Bytes)
    (hc : content.length = totalLength files) (C : Bytes → Bytes)
    (hC : ∀ i (hi : i < files.length), C (MultiFile.path base info.name files[i]) = fileBytes files content i hi)
    (d0 : Disk) (h0 : ∀ f ∈ files, d0.get? (MultiFile.path base info.name f) = none) (ops : List FsOp) (s : OpenFiles)
    (h : DeviceHistory dev base info (OpenFiles.new d0) ops s) (hfrom : AllFrom info.pieceLength content ops) :
    Sound C (files.map (MultiFile.path base info.name)) s.disk s.handed ∧
    ∀ idx data, FsOp.write idx data ∈ ops → ∀ i (hi : i < files.length),
      FilesInBounds.touches (idx * info.pieceLength) ((idx + 1) * info.pieceLength) (fileStart files i) files[i] = true →
      (s.disk.get? (MultiFile.path base info.name files[i])).isSome ∧
      ∀ x, x < files[i].length → (fileStart files i + x) / info.pieceLength = idx →
        Right C s.disk s.handed (MultiFile.path base info.name files[i]) x := by
  obtain ⟨hpl, -⟩ := hset.fits
  generalize hs0 : OpenFiles.new d0 = s0 at h
  induction h with
  | nil =>
    subst hs0
    refine ⟨⟨fun p hp c hcc => ?_, fun w hw => absurd hw (by simp [OpenFiles.new]),
      fun w hw => absurd hw (by simp [OpenFiles.new])⟩, fun idx data hx => absurd hx (by simp)⟩
    obtain ⟨f, hf, rfl⟩ := List.mem_map.mp hp
    change d0.get? _ = _ at hcc
    rw [h0 f hf] at hcc
    cases hcc
  | @write s ops idx data hh hv ih =>
    obtain ⟨ih1, ih2⟩ := ih (fun i d hx => hfrom i d (by simp [hx]))
    have hv' : ValidPiece info.pieces.length info.pieceLength (totalLength files) idx data := by
      have := hv
      unfold PieceOf at this
      rw [(stored_lengths hm).1] at this
      exact this
    have hfit := piece_fits dev base info files hset ho content hc C hC idx data hv' (hfrom idx data (by simp))
    have hstep : dev.writePiece base info idx data s = dev.files.writeFiles base info.name data
        (segsOf (idx * info.pieceLength) ((idx + 1) * info.pieceLength) 0 files) s := by
      unfold Device.writePiece FileSystem.multiWrite
      rw [hm]
      dsimp only
      rw [filesInBounds_eq files _ _ (Nat.mul_le_mul_right _ (by omega))]
      rfl
    rw [hstep]
    obtain ⟨w1, -, w3⟩ := onward_files dev hok base info.name data _ hfit s ih1
    generalize (dev.files.writeFiles base info.name data
      (segsOf (idx * info.pieceLength) ((idx + 1) * info.pieceLength) 0 files) s).1 = t at w1 w3
    obtain ⟨k1, k2, k3⟩ := w1 ih1
    refine ⟨k1, fun idx' data' hx i hi ht => ?_⟩
    rcases List.mem_append.mp hx with hx | hx
    · obtain ⟨j1, j2⟩ := ih2 idx' data' hx i hi ht
      exact ⟨k3 _ j1, fun x hx1 hx2 => k2 _ x (j2 x hx1 hx2)⟩
    · simp only [List.mem_singleton, FsOp.write.injEq] at hx
      obtain ⟨rfl, rfl⟩ := hx
      obtain ⟨j1, j2⟩ := w3 _ ((segsOf_touched _ _ 0 files _).mpr ⟨i, hi, by rw [Nat.zero_add]; exact ht, rfl⟩)
      refine ⟨j1, fun x hx1 hx2 => j2 x ?_ ?_⟩
      · have hr := (div_eq_iff_range hpl).mp hx2
        dsimp only
        omega
      · have hr := (div_eq_iff_range hpl).mp hx2
        dsimp only
        omega
  | @read s ops j c l buf hh ih =>
    obtain ⟨ih1, ih2⟩ := ih (fun i d hx => hfrom i d (by simp [hx]))
    have hon : Onward C (files.map (MultiFile.path base info.name)) s (dev.readBlock base info j c l buf s).1 := by
      unfold Device.readBlock FileSystem.multiRead
      rw [hm]
      dsimp only
      have hse : j * info.pieceLength + c ≤ j * info.pieceLength + c + l := by omega
      have hx := filesInBounds_eq files _ _ hse
      rw [hx]
      exact onward_reads dev hok base info.name _
        (fun seg hseg => List.mem_map_of_mem (segs_files files _ _ hse _ hx seg hseg)) buf s
    obtain ⟨k1, k2, k3⟩ := hon ih1
    refine ⟨k1, fun idx' data' hx i hi ht => ?_⟩
    have hx' : FsOp.write idx' data' ∈ ops := by simpa using hx
    obtain ⟨j1, j2⟩ := ih2 idx' data' hx' i hi ht
    exact ⟨k3 _ j1, fun x hx1 hx2 => k2 _ x (j2 x hx1 hx2)⟩

/-- C139, for the torrents that can be stored, with any number of files, on a device where no write fails: however long the
background threads take, whichever files are closed meanwhile, in any order of the pieces, with reads in between and pieces
written more than once: when all pieces of some contents have been written, and the background threads have done their work,
the files have these contents. Missing: that a block can be read at once after it was written (`C139_closed_violated`). -/
theorem C139_settled_partial (dev : Device) (hok : ∀ n, dev.fault n = none) (base : Bytes) (info : Info) (hs : Storable info)
    (d0 : Disk) (hv : Vacant dev base info d0) (ops : List FsOp) (s : OpenFiles)
    (h : DeviceHistory dev base info (OpenFiles.new d0) ops s) (content : Bytes)
    (hc : content.length = totalLength (storedFiles info)) (hfrom : AllFrom info.pieceLength content ops)
    (hall : AllWritten info.pieces.length ops) (i : Nat) (hi : i < (storedFiles info).length) :
    (s.settled dev).get? (filePath base (storedFiles info)[i]) = some (fileBytes (storedFiles info) content i hi) := by
  cases hm : info.mode with
  | single len =>
    refine (C139_few_files_partial dev hok base info hs ?_ d0 hv ops s h).2.2 content hc hfrom hall i hi
    unfold storedFiles
    rw [hm]
    simp
  | multi files =>
    obtain ⟨e1, e2, e3⟩ := stored_lengths hm
    have hset := storable_setting hs hm base
    obtain ⟨hpl, hn0, hn1, hn2⟩ := hset.fits
    have hpath : ∀ f ∈ files, filePath base ⟨info.name :: f.path, f.length⟩ = MultiFile.path base info.name f :=
      fun f hf => filePath_multi base info.name f (hs.paths files hm f hf).1
    have hmem : ∀ f ∈ files, ⟨info.name :: f.path, f.length⟩ ∈ storedFiles info := by
      intro f hf
      unfold storedFiles
      rw [hm]
      exact List.mem_map.mpr ⟨f, hf, rfl⟩
    have ho : ∀ f ∈ files, dev.openable (MultiFile.path base info.name f) = true := by
      intro f hf
      rw [← hpath f hf]
      exact hv.openable _ (hmem f hf)
    have h0 : ∀ f ∈ files, d0.get? (MultiFile.path base info.name f) = none := by
      intro f hf
      rw [← hpath f hf]
      exact hv.absent _ (hmem f hf)
    have hi' : i < files.length := by omega
    have hst : (storedFiles info)[i] = ⟨info.name :: files[i].path, files[i].length⟩ := by
      unfold storedFiles; simp [hm]
    obtain ⟨C, hC⟩ : ∃ C : Bytes → Bytes, ∀ i (hi : i < files.length),
        C (MultiFile.path base info.name files[i]) = fileBytes files content i hi := by
      classical
      refine ⟨fun p => if hx : ∃ j, ∃ hj : j < files.length, MultiFile.path base info.name files[j] = p then
        fileBytes files content hx.choose hx.choose_spec.choose else [], fun j hj => ?_⟩
      have hx : ∃ k, ∃ hk : k < files.length, MultiFile.path base info.name files[k] = MultiFile.path base info.name files[j] :=
        ⟨j, hj, rfl⟩
      dsimp only
      rw [dif_pos hx]
      have hk := hx.choose_spec.choose_spec
      have hkl := hx.choose_spec.choose
      have heq : hx.choose = j := by
        refine (List.Nodup.getElem_inj_iff hset.paths (i := hx.choose) (j := j) (hi := by simpa using hkl)
          (hj := by simpa using hj)).mp ?_
        rw [List.getElem_map, List.getElem_map]
        exact hk
      congr 1
    obtain ⟨hsound, hright⟩ := device_settles dev hok base info files hm hset ho content (hc.trans e1) C hC d0 h0 ops s h hfrom
    have hfl := fileStart_le files i hi'
    have hlen : (C (MultiFile.path base info.name files[i])).length = files[i].length := by
      rw [hC i hi']
      unfold fileBytes
      rw [List.length_take, List.length_drop]
      omega
    have hdone : ∀ idx, idx < info.pieces.length → FilesInBounds.touches (idx * info.pieceLength)
        ((idx + 1) * info.pieceLength) (fileStart files i) files[i] = true →
        (s.disk.get? (MultiFile.path base info.name files[i])).isSome ∧
        ∀ x, x < files[i].length → (fileStart files i + x) / info.pieceLength = idx →
          Right C s.disk s.handed (MultiFile.path base info.name files[i]) x := by
      intro idx hidx ht
      obtain ⟨data, hd⟩ := hall idx hidx
      exact hright idx data hd i hi' ht
    have hres := settled_right dev hok s hsound (MultiFile.path base info.name files[i])
      (List.mem_map_of_mem (List.getElem_mem hi')) ?_ ?_
    · rw [hst, hpath _ (List.getElem_mem hi'), hres, hC i hi']
      unfold fileBytes
      rw [e3, hst]
    · have hidx : fileStart files i / info.pieceLength < info.pieces.length := by
        rw [Nat.div_lt_iff_lt_mul hpl]
        by_cases hz : files[i].length = 0
        · have := hset.empty i hi' hz
          have hne : fileStart files i ≠ info.pieces.length * info.pieceLength := by
            intro he; rw [he, Nat.mul_mod_left] at this; simp at this
          omega
        · omega
      refine (hdone _ hidx ?_).1
      have hr := (div_eq_iff_range hpl).mp (rfl : fileStart files i / info.pieceLength = _)
      rw [touches_iff]
      omega
    · intro x hx
      rw [hlen] at hx
      have hidx : (fileStart files i + x) / info.pieceLength < info.pieces.length := by
        rw [Nat.div_lt_iff_lt_mul hpl]
        omega
      refine (hdone _ hidx ?_).2 x hx rfl
      have hr := (div_eq_iff_range hpl).mp (rfl : (fileStart files i + x) / info.pieceLength = _)
      rw [touches_iff]
      omega

/-! ## Writes that fail -/

theorem Safe.multiWrite {σ : Type} {I J : σ → Prop} {P : Bytes → Prop} {a : FileSystem σ} (h : Safe I J P a) (base : Bytes)
    (info : Info) (files : List TorrentFile) (hp : ∀ f ∈ files, P (MultiFile.path base info.name f)) (idx : Nat)
    (data : List Bytes) : Pres I J (a.multiWrite base info files idx data) := by
  unfold FileSystem.multiWrite
  have hse : idx * info.pieceLength ≤ (idx + 1) * info.pieceLength := Nat.mul_le_mul_right _ (by omega)
  have hx := filesInBounds_eq files _ _ hse
  dsimp only
  rw [hx]
  exact h.writeFiles base info.name data _ (fun seg hseg => hp _ (segs_files files _ _ hse _ hx seg hseg))

theorem Safe.multiRead {σ : Type} {I J : σ → Prop} {P : Bytes → Prop} {a : FileSystem σ} (h : Safe I J P a) (base : Bytes)
    (info : Info) (files : List TorrentFile) (hp : ∀ f ∈ files, P (MultiFile.path base info.name f)) (i b l : Nat)
    (buf : Bytes) : Pres I J (a.multiRead base info files i b l buf) := by
  unfold FileSystem.multiRead
  have hse : i * info.pieceLength + b ≤ i * info.pieceLength + b + l := by omega
  have hx := filesInBounds_eq files _ _ hse
  dsimp only
  rw [hx]
  exact h.readFiles base info.name _ (fun seg hseg => hp _ (segs_files files _ _ hse _ hx seg hseg)) buf

/-- Where the files of a torrent are. -/
def paths (base : Bytes) (info : Info) : List Bytes := (storedFiles info).map (filePath base)

theorem Safe.piece {I J : OpenFiles → Prop} {dev : Device} (base : Bytes) (info : Info) (hs : Storable info)
    (h : Safe I J (· ∈ paths base info) dev.files) (idx : Nat) (data : List Bytes) :
    Pres I J (dev.writePiece base info idx data) := by
  unfold Device.writePiece
  cases hm : info.mode with
  | single len =>
    refine h.singleWrite base info ?_ idx data
    rw [← filePath_single base info len]
    exact List.mem_map.mpr ⟨_, by unfold storedFiles; simp [hm], rfl⟩
  | multi files =>
    refine h.multiWrite base info files (fun f hf => ?_) idx data
    rw [← filePath_multi base info.name f (hs.paths files hm f hf).1]
    exact List.mem_map.mpr ⟨_, by unfold storedFiles; simp only [hm]; exact List.mem_map.mpr ⟨f, hf, rfl⟩, rfl⟩

theorem Safe.block {I J : OpenFiles → Prop} {dev : Device} (base : Bytes) (info : Info) (hs : Storable info)
    (h : Safe I J (· ∈ paths base info) dev.files) (i c l : Nat) (buf : Bytes) :
    Pres I J (dev.readBlock base info i c l buf) := by
  unfold Device.readBlock
  cases hm : info.mode with
  | single len =>
    refine h.singleRead base info ?_ i c l buf
    rw [← filePath_single base info len]
    exact List.mem_map.mpr ⟨_, by unfold storedFiles; simp [hm], rfl⟩
  | multi files =>
    refine h.multiRead base info files (fun f hf => ?_) i c l buf
    rw [← filePath_multi base info.name f (hs.paths files hm f hf).1]
    exact List.mem_map.mpr ⟨_, by unfold storedFiles; simp only [hm]; exact List.mem_map.mpr ⟨f, hf, rfl⟩, rfl⟩

/-- Every write that failed since write number `w` is one that a handle has still to report. -/
def Admitted (dev : Device) (ps : List Bytes) (w : Nat) (s : OpenFiles) : Prop :=
  Orderly ps s ∧ ∀ n, w ≤ n → n < s.writes → (dev.fault n).isSome → ∃ p ∈ ps, s.unreported.get? p = some n

theorem admitted_safe (dev : Device) (ps : List Bytes) (hlen : ps.length ≤ 16) (w : Nat) :
    Safe (Admitted dev ps w) (Orderly ps) (· ∈ ps) dev.files := by
  refine ⟨fun s h => h.1, ?_, ?_, ?_⟩
  · rintro p hp s ⟨ho, hn⟩
    obtain ⟨s', he, ho', hu, hw, -⟩ := openFile_step dev ps hlen p hp s ho
    show Orderly ps (OpenFiles.openFile dev p s).1 ∧ ∀ a, (OpenFiles.openFile dev p s).2 = _ → Admitted dev ps w (OpenFiles.openFile dev p s).1
    rw [he]
    exact ⟨ho', fun _ _ => ⟨ho', by rw [hu, hw]; exact hn⟩⟩
  · rintro p pos bs hp s ⟨ho, hn⟩
    show Orderly ps (OpenFiles.writeAll dev p pos bs s).1 ∧ ∀ a, (OpenFiles.writeAll dev p pos bs s).2 = _ → Admitted dev ps w (OpenFiles.writeAll dev p pos bs s).1
    by_cases hb : bs = []
    · unfold OpenFiles.writeAll
      rw [if_pos hb]
      exact ⟨ho, fun _ _ => ⟨ho, hn⟩⟩
    · cases hf : Failed dev s p with
      | true =>
        obtain ⟨s', he, ho', -⟩ := writeAll_refused dev ps p pos bs hb s ho hf
        rw [he]
        exact ⟨ho', fun a ha => by cases ha⟩
      | false =>
        obtain ⟨s', he, ho', hw, hu, -⟩ := writeAll_step dev ps p pos bs hb s ho hf
        rw [he]
        refine ⟨ho', fun _ _ => ⟨ho', fun n h1 h2 h3 => ?_⟩⟩
        dsimp only at h2 ⊢
        rw [hu]
        by_cases hnew : n = s.writes
        · exact ⟨p, hp, by rw [Map.get?_insert, if_pos rfl, hnew]⟩
        · obtain ⟨q, hq, hqn⟩ := hn n h1 (by omega) h3
          refine ⟨q, hq, ?_⟩
          rw [Map.get?_insert, if_neg, hqn]
          rintro rfl
          unfold Failed at hf
          rw [hqn] at hf
          simp only [Option.any_some] at hf
          rw [hf] at h3
          cases h3
  · rintro p pos n hp s ⟨ho, hn⟩
    obtain ⟨s', ho', hw, hu, -, he⟩ := readExact_step dev ps p pos n s ho
    show Orderly ps (OpenFiles.readExact dev p pos n s).1 ∧ ∀ a, (OpenFiles.readExact dev p pos n s).2 = _ → Admitted dev ps w (OpenFiles.readExact dev p pos n s).1
    rw [he]
    exact ⟨ho', fun _ _ => ⟨ho', by rw [hu, hw]; exact hn⟩⟩

theorem device_orderly (dev : Device) (base : Bytes) (info : Info) (hs : Storable info)
    (hfew : (storedFiles info).length ≤ 16) (d0 : Disk) (ops : List FsOp) (s : OpenFiles)
    (h : DeviceHistory dev base info (OpenFiles.new d0) ops s) : Orderly (paths base info) s := by
  generalize hs0 : OpenFiles.new d0 = s0 at h
  have key : ∀ s : OpenFiles, Orderly (paths base info) s → Admitted dev (paths base info) s.writes s :=
    fun s hs => ⟨hs, fun n h1 h2 => by omega⟩
  have hsafe := fun w => admitted_safe dev (paths base info) (by unfold paths; simpa using hfew) w
  induction h with
  | nil => subst hs0; exact (upholds_new dev _ d0).1
  | @write s ops idx data hh hv ih => exact (Safe.piece base info hs (hsafe _) idx data s (key s ih)).1
  | @read s ops i c l buf hh ih => exact (Safe.block base info hs (hsafe _) i c l buf s (key s ih)).1

/-- C138, for the torrents that can be stored and have at most 16 files, on any device and after any calls: a call that
writes a piece and reports success has missed at most one failed write for every file (`which` tells the file), and the next
write to this file reports it. Missing: it is the piece whose write failed that is taken as written, and the next one that is
not (`C138_lost_violated`). -/
theorem C138_unreported_partial (dev : Device) (base : Bytes) (info : Info) (hs : Storable info)
    (hfew : (storedFiles info).length ≤ 16) (d0 : Disk) (ops : List FsOp) (s : OpenFiles)
    (h : DeviceHistory dev base info (OpenFiles.new d0) ops s) (idx : Nat) (data : List Bytes) (s' : OpenFiles)
    (hw : dev.writePiece base info idx data s = (s', .ok ())) :
    ∃ which : Nat → Bytes,
      (∀ n, s.writes ≤ n → n < s'.writes → dev.fault n ≠ none → (∃ f ∈ storedFiles info, which n = filePath base f) ∧
        ∀ pos bs, bs ≠ [] → (dev.files.writeAll (which n) pos bs s').2 = .err) ∧
      ∀ n m, s.writes ≤ n → n < s'.writes → dev.fault n ≠ none → s.writes ≤ m → m < s'.writes → dev.fault m ≠ none →
        which n = which m → n = m := by
  have ho := device_orderly dev base info hs hfew d0 ops s h
  have hsafe := admitted_safe dev (paths base info) (by unfold paths; simpa using hfew) s.writes
  have hadm := (Safe.piece base info hs hsafe idx data s ⟨ho, fun n h1 h2 => by omega⟩).2
  rw [hw] at hadm
  obtain ⟨ho', hn⟩ := hadm () rfl
  have hn' : ∀ n, s.writes ≤ n → n < s'.writes → dev.fault n ≠ none →
      ∃ p ∈ paths base info, s'.unreported.get? p = some n :=
    fun n h1 h2 h3 => hn n h1 h2 (Option.isSome_iff_ne_none.mpr h3)
  classical
  refine ⟨fun n => if hc : s.writes ≤ n ∧ n < s'.writes ∧ dev.fault n ≠ none then
    (hn' n hc.1 hc.2.1 hc.2.2).choose else [], fun n h1 h2 h3 => ?_, fun n m h1 h2 h3 k1 k2 k3 he => ?_⟩
  · dsimp only
    rw [dif_pos ⟨h1, h2, h3⟩]
    obtain ⟨hp, hu⟩ := (hn' n h1 h2 h3).choose_spec
    generalize (hn' n h1 h2 h3).choose = p at hp hu
    obtain ⟨f, hf, rfl⟩ := List.mem_map.mp hp
    refine ⟨⟨f, hf, rfl⟩, fun pos bs hb => ?_⟩
    obtain ⟨s2, he, -⟩ := writeAll_refused dev _ (filePath base f) pos bs hb s' ho'
      (by unfold Failed; rw [hu]; simpa [Option.isSome_iff_ne_none] using h3)
    show (OpenFiles.writeAll dev _ pos bs s').2 = .err
    rw [he]
  · dsimp only at he
    rw [dif_pos ⟨h1, h2, h3⟩, dif_pos ⟨k1, k2, k3⟩] at he
    have hu := (hn' n h1 h2 h3).choose_spec.2
    have hv := (hn' m k1 k2 k3).choose_spec.2
    rw [he, hv] at hu
    exact (Option.some.inj hu).symm

/-- Blocks that are written one after the other, and no write fails. -/
theorem blocks_step (dev : Device) (ps : List Bytes) (p : Bytes) (bs : List Bytes) (hb : ∀ b ∈ bs, b ≠ []) :
    ∀ (pos : Nat) (s : OpenFiles) (_ : Orderly ps s) (_ : Failed dev s p = false)
      (_ : ∀ j, j < bs.length → dev.fault (s.writes + j) = none) (c : Bytes) (_ : (s.settled dev).get? p = some c),
      ∃ s', dev.files.writeBlocks p pos bs s = (s', .ok ()) ∧ Orderly ps s' ∧ Failed dev s' p = false ∧
        s'.writes = s.writes + bs.length ∧ (s'.settled dev).get? p = some (writeAt c pos bs.flatten) := by
  induction bs with
  | nil => exact fun pos s ho hf hn c hc => ⟨s, rfl, ho, hf, rfl, by rw [hc, List.flatten_nil, writeAt_nil]⟩
  | cons b bs ih =>
    intro pos s ho hf hn c hc
    obtain ⟨s1, he, ho1, hw1, hu1, hs1⟩ := writeAll_step dev ps p pos b (hb b (by simp)) s ho hf
    have h0 : dev.fault s.writes = none := hn 0 (by simp)
    have hf1 : Failed dev s1 p = false := by
      unfold Failed
      rw [hu1, Map.get?_insert, if_pos rfl]
      simp [h0]
    have hc1 := hs1 p
    rw [if_pos rfl, hc, h0] at hc1
    obtain ⟨s2, he2, ho2, hf2, hw2, hs2⟩ := ih (fun x hx => hb x (by simp [hx])) (pos + b.length) s1 ho1 hf1
      (fun j hj => by rw [hw1]; have := hn (j + 1) (by simpa using hj); rw [← this]; congr 1; omega) _ hc1
    refine ⟨s2, ?_, ho2, hf2, by rw [hw2, hw1, List.length_cons]; omega, ?_⟩
    · show FsM.bind (OpenFiles.writeAll dev p pos b) (fun _ => dev.files.writeBlocks p (pos + b.length) bs) s = _
      unfold FsM.bind
      rw [he]
      exact he2
    · rw [hs2, writeAt_append, List.flatten_cons]

theorem blocks_append {σ : Type} (a : FileSystem σ) (p : Bytes) (xs ys : List Bytes) (pos : Nat) (s s' : σ)
    (h : a.writeBlocks p pos xs s = (s', .ok ())) :
    a.writeBlocks p pos (xs ++ ys) s = a.writeBlocks p (pos + xs.flatten.length) ys s' := by
  induction xs generalizing pos s with
  | nil => cases h; rfl
  | cons x xs ih =>
    change FsM.bind (a.writeAll p pos x) (fun _ => a.writeBlocks p (pos + x.length) xs) s = _ at h
    show FsM.bind (a.writeAll p pos x) (fun _ => a.writeBlocks p (pos + x.length) (xs ++ ys)) s = _
    unfold FsM.bind at h ⊢
    cases hx : a.writeAll p pos x s with
    | mk s1 r =>
      rw [hx] at h
      cases r with
      | ok u =>
        have := ih (pos + x.length) s1 h
        simp only [List.flatten_cons, List.length_append, ← Nat.add_assoc]
        exact this
      | err => cases h
      | panic => cases h

/-- Opening the file, as a piece that is not the last one is written. -/
theorem middle_step (dev : Device) (base : Bytes) (info : Info) (len : Nat) (hm : info.mode = .single len)
    (ho : dev.openable (SingleFile.path base info) = true) (idx : Nat) (hidx : idx + 1 < info.pieces.length)
    (s : OpenFiles) (hs : Orderly [SingleFile.path base info] s) :
    ∃ s', (∀ data, dev.writePiece base info idx data s =
        dev.files.writeBlocks (SingleFile.path base info) (idx * info.pieceLength) data s') ∧
      Orderly [SingleFile.path base info] s' ∧ s'.unreported = s.unreported ∧ s'.writes = s.writes ∧
      ∀ q, (s'.settled dev).get? q = if q = SingleFile.path base info then
        some (((s.settled dev).get? (SingleFile.path base info)).getD []) else (s.settled dev).get? q := by
  obtain ⟨s', he, ho', hu, hw, h1, -⟩ := openFile_step dev [SingleFile.path base info] (by simp)
    (SingleFile.path base info) (by simp) s hs
  rw [if_pos ho] at he
  refine ⟨s', fun data => ?_, ho', hu, hw, h1 ho⟩
  unfold Device.writePiece
  rw [hm]
  show FsM.bind (FsM.lift (usub info.pieces.length 1)) (fun last => if idx < last then _ else _) s = _
  have hus : usub info.pieces.length 1 = .ok (info.pieces.length - 1) := by unfold usub; rw [if_pos (by omega)]
  rw [hus]
  show (if idx < info.pieces.length - 1 then dev.files.singleMiddle base info idx data else _) s = _
  rw [if_pos (by omega)]
  show FsM.bind (OpenFiles.openFile dev (SingleFile.path base info)) (fun _ => dev.files.writeBlocks _ _ data) s = _
  unfold FsM.bind
  rw [he]

/-- C138 is violated: if the last write of a piece fails, the piece is reported as written although the file ends before the
piece does, and the error is reported for the piece that is written next, of which nothing is written. Here the write of the
last block `b` fails after `k` bytes, and no other. -/
theorem C138_lost_violated (dev : Device) (base : Bytes) (info : Info) (len : Nat) (hm : info.mode = .single len)
    (ho : dev.openable (base ++ ascii "/" ++ info.name) = true) (idx : Nat) (hidx : idx + 1 < info.pieces.length)
    (init : List Bytes) (b : Bytes) (hne : ∀ x ∈ init ++ [b], x ≠ []) (k : Nat) (hk : k < b.length)
    (hfault : ∀ n, dev.fault n = if n = init.length then some k else none) (d0 : Disk)
    (h0 : d0.get? (base ++ ascii "/" ++ info.name) = none) :
    ∃ s c, dev.writePiece base info idx (init ++ [b]) (OpenFiles.new d0) = (s, .ok ()) ∧
      (s.settled dev).get? (base ++ ascii "/" ++ info.name) = some c ∧
      c.length < idx * info.pieceLength + (init ++ [b]).flatten.length ∧
      ∀ idx' x data', idx' + 1 < info.pieces.length → x ≠ [] → ∃ s',
        dev.writePiece base info idx' (x :: data') s = (s', .err) ∧
          (s'.settled dev).get? (base ++ ascii "/" ++ info.name) = some c := by
  have hpath : base ++ ascii "/" ++ info.name = SingleFile.path base info := rfl
  rw [hpath] at ho h0 ⊢
  generalize hp : SingleFile.path base info = p at ho h0 ⊢
  obtain ⟨s0, e0, o0, u0, w0, g0⟩ := middle_step dev base info len hm (hp ▸ ho) idx hidx (OpenFiles.new d0)
    (upholds_new dev _ d0).1
  rw [hp] at e0 o0 g0
  have hc0 := g0 p
  rw [if_pos rfl, (upholds_new dev [] d0).2, h0] at hc0
  change s0.writes = 0 at w0
  obtain ⟨s1, e1, o1, f1, w1, g1⟩ := blocks_step dev [p] p init (fun x hx => hne x (by simp [hx])) (idx * info.pieceLength) s0
    o0 (by unfold Failed; rw [u0]; rfl) (fun j hj => by rw [w0, hfault, if_neg (by omega)]) _ hc0
  have hb : b ≠ [] := hne b (by simp)
  obtain ⟨s2, e2, o2, w2, u2, g2⟩ := writeAll_step dev [p] p (idx * info.pieceLength + init.flatten.length) b hb s1 o1 f1
  have hc2 := g2 p
  have hft : dev.fault s1.writes = some k := by rw [hfault, if_pos (by omega)]
  rw [if_pos rfl, g1, hft, Option.map_some] at hc2
  dsimp only at hc2
  rw [writeAt_append] at hc2
  refine ⟨s2, _, ?_, hc2, ?_, fun idx' x data' hi hx => ?_⟩
  · rw [e0, blocks_append dev.files p init [b] _ s0 s1 e1]
    show FsM.bind (OpenFiles.writeAll dev p _ b) (fun _ => dev.files.writeBlocks p _ []) s1 = _
    unfold FsM.bind
    rw [e2]
    rfl
  · have hl : (init ++ [b]).flatten.length = init.flatten.length + b.length := by simp
    have ht : (b.take k).length = k := by rw [List.length_take]; omega
    rw [hl]
    by_cases hnil : init.flatten ++ b.take k = []
    · rw [hnil, writeAt_nil]
      simp only [Option.getD_none, List.length_nil]
      omega
    · rw [writeAt_length _ _ _ hnil, List.length_append, ht]
      simp only [Option.getD_none, List.length_nil]
      omega
  · obtain ⟨s3, e3, o3, u3, w3, g3⟩ := middle_step dev base info len hm (hp ▸ ho) idx' hi s2 (hp ▸ o2)
    rw [hp] at e3 o3 g3
    have hf3 : Failed dev s3 p = true := by
      unfold Failed
      rw [u3, u2, Map.get?_insert, if_pos rfl]
      simp [hft]
    obtain ⟨s4, e4, -, -, -, g4⟩ := writeAll_refused dev [p] p (idx' * info.pieceLength) x hx s3 o3 hf3
    refine ⟨s4, ?_, ?_⟩
    · rw [e3]
      show FsM.bind (OpenFiles.writeAll dev p _ x) (fun _ => dev.files.writeBlocks p _ data') s3 = _
      unfold FsM.bind
      rw [e4]
    · rw [g4, g3, if_pos rfl, hc2]; rfl

/-! ## Files that are closed -/

/-- A torrent with 17 files of one byte, in two pieces. -/
def demoSeventeen : Info := ⟨ascii "t", 16, [demoSha1 (ascii "abcdefghijklmnop"), demoSha1 (ascii "q")],
  .multi ((List.range 17).map fun i => ⟨[[BitVec.ofNat 8 (97 + i)]], 1⟩)⟩

theorem demoSeventeen_storable : Storable demoSeventeen where
  name := by unfold NormalName; decide
  paths := by
    intro files h f hf
    cases h
    revert f
    unfold NormalName
    decide
  distinct := by decide
  noClash := by
    rintro f hf ⟨-, g, hg, rest, hr, he⟩
    have hlen : ∀ f ∈ storedFiles demoSeventeen, f.path.length = 2 := by decide
    have h1 := hlen f hf
    have h2 := hlen g hg
    rw [he, List.length_append, h1] at h2
    exact hr (List.length_eq_zero_iff.mp (by omega))
  fits := by unfold EnoughPieces; decide
  empty := by decide
  single := by intro len h; cases h

/-- A device where nothing fails, and the background thread of the first write is late. -/
def lateDevice : Device := ⟨fun _ => true, .still, fun _ => none, fun n => if n = 0 then 100 else 0⟩

/-- Both pieces are written. -/
def lateState : OpenFiles :=
  (lateDevice.writePiece (ascii "/d") demoSeventeen 1 [ascii "q"]
    (lateDevice.writePiece (ascii "/d") demoSeventeen 0 [ascii "abcdefghijklmnop"] (OpenFiles.new [])).1).1

theorem late_history : DeviceHistory lateDevice (ascii "/d") demoSeventeen (OpenFiles.new [])
    [.write 0 [ascii "abcdefghijklmnop"], .write 1 [ascii "q"]] lateState := by
  refine .write (ops := [.write 0 [ascii "abcdefghijklmnop"]]) (.write (ops := []) (.nil _) ?_) ?_
  · exact ⟨by decide, ⟨fun i hi => absurd hi (by simp), by decide⟩, by decide, by decide⟩
  · exact ⟨by decide, ⟨fun i hi => absurd hi (by simp), by decide⟩, by decide, by decide⟩

/-- C139 is violated: although nothing fails, a torrent can be stored and all that was written so far was written with
success, a block that was written need not be there when it is read. When more than 16 files are in use the cache closes one
without waiting for what was handed to its background thread. -/
theorem C139_closed_violated :
    ¬ ∀ (dev : Device) (_ : ∀ n, dev.fault n = none) (base : Bytes) (info : Info) (_ : Storable info) (d0 : Disk)
      (_ : Vacant dev base info d0) (ops : List FsOp) (s : OpenFiles)
      (_ : DeviceHistory dev base info (OpenFiles.new d0) ops s) (index begin_ length : Nat) (buf : Bytes),
      length ≤ buf.length → index * info.pieceLength + begin_ + length ≤ totalLength (storedFiles info) →
      (∀ i, i < length → (torrentByte info.pieceLength ops (index * info.pieceLength + begin_ + i)).isSome) →
      ∃ buf', (dev.readBlock base info index begin_ length buf s).2 = .ok buf' := by
  intro h
  obtain ⟨buf', hb⟩ := h lateDevice (fun _ => rfl) (ascii "/d") demoSeventeen demoSeventeen_storable []
    ⟨fun _ _ => rfl, fun _ _ => rfl⟩ _ _ late_history 0 0 1 (ascii ".") (by decide) (by decide) (by decide +kernel)
  have he : (match (lateDevice.readBlock (ascii "/d") demoSeventeen 0 0 1 (ascii ".") lateState).2 with
    | .ok _ => false | _ => true) = true := by decide +kernel
  rw [hb] at he
  cases he

/-- A device where the first write fails. -/
def firstFails : Device := ⟨fun _ => true, .still, fun n => if n = 0 then some 0 else none, fun _ => 0⟩

/-- Both pieces are written. -/
def silentState : OpenFiles :=
  (firstFails.writePiece (ascii "/d") demoSeventeen 1 [ascii "q"]
    (firstFails.writePiece (ascii "/d") demoSeventeen 0 [ascii "abcdefghijklmnop"] (OpenFiles.new [])).1).1

theorem paired {α β : Type} (x : α × Res β) {b : Res β} (h : x.2 = b) : x = (x.1, b) := by rw [← h]

theorem never_told (p : Bytes) (pos : Nat) (bs : Bytes) (s : OpenFiles) (hall : ∀ e ∈ s.unreported, e.2 ≠ 0) :
    (firstFails.files.writeAll p pos bs s).2 = .ok () := by
  have hnf : ((((s.tick firstFails).await firstFails p).unreported.get? p).any
      fun n => (firstFails.fault n).isSome) = false := by
    have hu : ((s.tick firstFails).await firstFails p).unreported = s.unreported := by
      unfold OpenFiles.await
      split <;> rfl
    rw [hu]
    cases hg : s.unreported.get? p with
    | none => rfl
    | some n =>
      have := hall _ (Map.mem_of_get? hg)
      simp only [Option.any_some]
      unfold firstFails
      simp only at this ⊢
      rw [if_neg this]
      rfl
  show (OpenFiles.writeAll firstFails p pos bs s).2 = _
  unfold OpenFiles.writeAll
  split
  · rfl
  · dsimp only
    rw [hnf]
    rfl

/-- C138 is violated for good when there are more than 16 files: both pieces of a torrent are reported as written, one file
stays empty, and no later write to any file reports that. The handle that would have reported it is closed. -/
theorem C138_silent_violated : ∃ (dev : Device) (base : Bytes) (info : Info) (p0 p1 : List Bytes) (s1 s2 : OpenFiles),
    Storable info ∧ Vacant dev base info [] ∧ info.pieces.length = 2 ∧ PieceOf info 0 p0 ∧ PieceOf info 1 p1 ∧
    dev.writePiece base info 0 p0 (OpenFiles.new []) = (s1, .ok ()) ∧ dev.writePiece base info 1 p1 s1 = (s2, .ok ()) ∧
    (∃ f ∈ storedFiles info, f.length = 1 ∧ (s2.settled dev).get? (filePath base f) = some []) ∧
    ∀ p pos bs, (dev.files.writeAll p pos bs s2).2 = .ok () := by
  refine ⟨firstFails, ascii "/d", demoSeventeen, [ascii "abcdefghijklmnop"], [ascii "q"],
    (firstFails.writePiece (ascii "/d") demoSeventeen 0 [ascii "abcdefghijklmnop"] (OpenFiles.new [])).1, silentState,
    demoSeventeen_storable, ⟨fun _ _ => rfl, fun _ _ => rfl⟩, rfl, ?_, ?_, ?_, ?_,
    ⟨⟨[ascii "t", ascii "a"], 1⟩, by decide, rfl, by decide +kernel⟩, fun p pos bs => ?_⟩
  · exact ⟨by decide, ⟨fun i hi => absurd hi (by simp), by decide⟩, by decide, by decide⟩
  · exact ⟨by decide, ⟨fun i hi => absurd hi (by simp), by decide⟩, by decide, by decide⟩
  · exact paired _ (by decide +kernel)
  · unfold silentState
    exact paired _ (by decide +kernel)
  · exact never_told p pos bs silentState (by decide +kernel)

/-! ## The statements are not about nothing -/

/-- Both pieces were reported as written; later all is in the files, but for the file that was closed it took its time. -/
example :
    (lateDevice.writePiece (ascii "/d") demoSeventeen 0 [ascii "abcdefghijklmnop"] (OpenFiles.new [])).2 = .ok () ∧
    (lateDevice.writePiece (ascii "/d") demoSeventeen 1 [ascii "q"]
      (lateDevice.writePiece (ascii "/d") demoSeventeen 0 [ascii "abcdefghijklmnop"] (OpenFiles.new [])).1).2 = .ok () ∧
    lateState.disk.get? (ascii "/d/t/a") = some [] ∧
    (lateState.settled lateDevice).get? (ascii "/d/t/a") = some (ascii "a") := by decide +kernel

/-- `C139_settled_partial` holds for the 17 files. -/
example : AllWritten demoSeventeen.pieces.length [.write 0 [ascii "abcdefghijklmnop"], .write 1 [ascii "q"]] ∧
    AllFrom demoSeventeen.pieceLength (ascii "abcdefghijklmnopq")
      [.write 0 [ascii "abcdefghijklmnop"], .write 1 [ascii "q"]] ∧
    (ascii "abcdefghijklmnopq").length = totalLength (storedFiles demoSeventeen) := by
  refine ⟨fun idx h => ?_, fun idx data h => ?_, by decide⟩
  · have : idx = 0 ∨ idx = 1 := by
      have : idx < 2 := h
      omega
    rcases this with rfl | rfl
    · exact ⟨[ascii "abcdefghijklmnop"], by simp⟩
    · exact ⟨[ascii "q"], by simp⟩
  · simp only [List.mem_cons, FsOp.write.injEq, List.not_mem_nil, or_false] at h
    rcases h with ⟨rfl, rfl⟩ | ⟨rfl, rfl⟩ <;> decide

/-- A device whose writes take their time. -/
def slowDevice : Device := ⟨fun _ => true, .still, fun _ => none, fun n => 3 * n⟩

/-- `C139_few_files_partial` holds for the two files of `demoStored`: the second piece is written, then the first. -/
example : Storable demoStored ∧ (storedFiles demoStored).length ≤ 16 ∧ Vacant slowDevice (ascii "/d") demoStored [] ∧
    ∃ s, DeviceHistory slowDevice (ascii "/d") demoStored (OpenFiles.new [])
        [.write 1 [ascii "e"], .write 0 [ascii "abcd"]] s ∧
      AllWritten demoStored.pieces.length [.write 1 [ascii "e"], .write 0 [ascii "abcd"]] ∧
      AllFrom demoStored.pieceLength (ascii "abcde") [.write 1 [ascii "e"], .write 0 [ascii "abcd"]] := by
  refine ⟨demoStored_storable, by decide, ⟨fun _ _ => rfl, fun _ _ => rfl⟩, _,
    .write (ops := [.write 1 [ascii "e"]]) (.write (ops := []) (.nil _) ?_) ?_, ?_, ?_⟩
  · exact ⟨by decide, ⟨fun i hi => absurd hi (by simp), by decide⟩, by decide, by decide⟩
  · exact ⟨by decide, ⟨fun i hi => absurd hi (by simp), by decide⟩, by decide, by decide⟩
  · intro idx h
    have : idx = 0 ∨ idx = 1 := by
      have : idx < 2 := h
      omega
    rcases this with rfl | rfl
    · exact ⟨[ascii "abcd"], by simp⟩
    · exact ⟨[ascii "e"], by simp⟩
  · intro idx data h
    simp only [List.mem_cons, FsOp.write.injEq, List.not_mem_nil, or_false] at h
    rcases h with ⟨rfl, rfl⟩ | ⟨rfl, rfl⟩ <;> decide

/-- A torrent with one file of ten bytes, in three pieces. -/
def demoTen : Info := ⟨ascii "f", 4, [demoSha1 (ascii "abcd"), demoSha1 (ascii "efgh"), demoSha1 (ascii "ij")], .single 10⟩

/-- The first write fails after one byte. -/
def badDevice : Device := ⟨fun _ => true, .still, fun n => if n = 0 then some 1 else none, fun _ => 0⟩

/-- As `C138_lost_violated` says: the first piece is reported as written, the second one is not, and writing the second one
again works. -/
example :
    let s1 := badDevice.writePiece (ascii "/d") demoTen 0 [ascii "abcd"] (OpenFiles.new [])
    let s2 := badDevice.writePiece (ascii "/d") demoTen 1 [ascii "efgh"] s1.1
    let s3 := badDevice.writePiece (ascii "/d") demoTen 1 [ascii "efgh"] s2.1
    s1.2 = .ok () ∧ (s1.1.settled badDevice).get? (ascii "/d/f") = some (ascii "a") ∧
    s2.2 = .err ∧ (s2.1.settled badDevice).get? (ascii "/d/f") = some (ascii "a") ∧
    s3.2 = .ok () ∧ (s3.1.settled badDevice).get? (ascii "/d/f") = some (ascii "a" ++ [0, 0, 0] ++ ascii "efgh") := by
  decide +kernel

example : ∀ n, badDevice.fault n = if n = ([] : List Bytes).length then some 1 else none := fun _ => rfl

/-- `C138_unreported_partial` with two files of which both last writes fail. -/
example :
    let dev : Device := ⟨fun _ => true, .still, fun n => if n < 2 then some 0 else none, fun _ => 0⟩
    let s1 := dev.writePiece (ascii "/d") demoStored 0 [ascii "abcd"] (OpenFiles.new [])
    s1.2 = .ok () ∧ s1.1.writes = 2 ∧ (s1.1.settled dev).get? (ascii "/d/t/a/x") = some [] ∧
    (dev.files.writeAll (ascii "/d/t/y") 1 (ascii "e") s1.1).2 = .err ∧
    (dev.writePiece (ascii "/d") demoStored 1 [ascii "e"] s1.1).2 = .err := by decide +kernel

end Nargun
