import Verif.Model.Metainfo
import Verif.Spec.TrackerResponse
import Verif.Spec.Bencode

/-! # Specification of metainfo files (BEP 3, BEP 12) -/

namespace Nargun.Spec

open Nargun

/-- A required text. -/
def IsText (utf8 : Bytes → Bool) (v : Option BVal) (s : Bytes) : Prop := v = some (.str s) ∧ utf8 s = true

/-- A list of texts. -/
def IsTexts (utf8 : Bytes → Bool) (v : BVal) (ss : List Bytes) : Prop :=
  v = .list (ss.map .str) ∧ ∀ s ∈ ss, utf8 s = true

/-- The piece hashes written one after the other. -/
def IsHashes (raw : Bytes) (ids : List ID) : Prop := raw ≠ [] ∧ raw = ids.flatMap (·.bytes)

/-- An entry of the list of files. -/
def IsFile (utf8 : Bytes → Bool) (v : BVal) (f : TorrentFile) : Prop :=
  ∃ pairs p, v = .dict pairs ∧ field pairs "path" = some p ∧ IsTexts utf8 p f.path ∧
    IsNumber (field pairs "length") f.length

/-- The list of files: as many entries as files, each entry describing its file. -/
def IsFiles (utf8 : Bytes → Bool) (v : BVal) (fs : List TorrentFile) : Prop :=
  ∃ vs, v = .list vs ∧ vs.length = fs.length ∧ ∀ i (h : i < vs.length) (h' : i < fs.length), IsFile utf8 vs[i] fs[i]

/-- What an info dictionary says. If there is a `length` the torrent is a single file, otherwise `files` lists
its files. -/
structure InfoMeans (utf8 : Bytes → Bool) (pairs : List (Bytes × BVal)) (i : Info) : Prop where
  name : IsText utf8 (field pairs "name") i.name
  pieceLength : IsNumber (field pairs "piece length") i.pieceLength
  pieces : ∃ raw, field pairs "pieces" = some (.str raw) ∧ IsHashes raw i.pieces
  single : ∀ n, i.mode = .single n → IsNumber (field pairs "length") n
  multi : ∀ fs, i.mode = .multi fs → field pairs "length" = none ∧ ∃ v, field pairs "files" = some v ∧ IsFiles utf8 v fs
  files : ∀ v, field pairs "files" = some v → ∃ fs, IsFiles utf8 v fs

/-- The tracker URLs of a metainfo file: that of `announce`, then those of `announce-list`, tier by tier. -/
def IsUrls (utf8 : Bytes → Bool) (pairs : List (Bytes × BVal)) (urls : List Bytes) : Prop :=
  ∃ (first : Option Bytes) (tiers : List (List Bytes)),
    IsOptText utf8 (field pairs "announce") first ∧
    (field pairs "announce-list" = none ∧ tiers = [] ∨
      ∃ vs, field pairs "announce-list" = some (.list vs) ∧ vs.length = tiers.length ∧
        ∀ i (h : i < vs.length) (h' : i < tiers.length), IsTexts utf8 vs[i] tiers[i]) ∧
    urls = first.toList ++ tiers.flatten

/-- A URL with a supported scheme denotes a tracker. -/
def Denotes (url : Bytes) (t : TrackerAddr) : Prop :=
  (t = .http url ∧ ∃ rest, url = ascii "http" ++ rest) ∨ (t = .udp url ∧ ∃ rest, url = ascii "udp" ++ rest)

end Nargun.Spec
