import Verif.Model.Storage
import Verif.Spec.Fs
import Verif.Spec.DirBuilder

/-! # Specification of the storage of a torrent in the file system -/

namespace Nargun.Spec

open Nargun

/-- The files of a torrent, with their paths below the directory it is stored in. -/
def storedFiles (info : Info) : List TorrentFile :=
  match info.mode with
  | .single len => [⟨[info.name], len⟩]
  | .multi files => files.map fun f => ⟨info.name :: f.path, f.length⟩

/-- The torrents that the program can store. Names stand for themselves; no two files have the same path, and none has the
path of a directory. There are as many pieces as the files need. No empty file is at the beginning of a block, and the
length of a single file is no multiple of the piece length (C52, C53). -/
structure Storable (info : Info) : Prop where
  name : NormalName info.name
  paths : ∀ files, info.mode = .multi files → ∀ f ∈ files, f.path ≠ [] ∧ ∀ c ∈ f.path, NormalName c
  distinct : ((storedFiles info).map (·.path)).Nodup
  noClash : ∀ f ∈ storedFiles info, ¬ ProperAncestor (storedFiles info) f.path
  fits : EnoughPieces info.pieces.length info.pieceLength (totalLength (storedFiles info))
  empty : ∀ i (h : i < (storedFiles info).length), (storedFiles info)[i].length = 0 →
    fileStart (storedFiles info) i % info.pieceLength % 16384 ≠ 0
  single : ∀ len, info.mode = .single len → len % info.pieceLength ≠ 0

/-- Data for a piece of the torrent. -/
def PieceOf (info : Info) (idx : Nat) (data : List Bytes) : Prop :=
  ValidPiece info.pieces.length info.pieceLength (totalLength (storedFiles info)) idx data

/-- A history of calls on the storage, with any outcome: blocks are read, and pieces of the torrent are written. -/
inductive StoreHistory (allowed : Loc → Bool) (base : Bytes) (info : Info) : Tree → List FsOp → Tree → Prop
  | nil (t : Tree) : StoreHistory allowed base info t [] t
  | write {t0 t ops idx data} : StoreHistory allowed base info t0 ops t → PieceOf info idx data →
      StoreHistory allowed base info t0 (ops ++ [.write idx data]) (FS.writePiece allowed base info idx data t).1
  | read {t0 t ops i b l buf} : StoreHistory allowed base info t0 ops t →
      StoreHistory allowed base info t0 (ops ++ [.read i b l buf]) (FS.readBlock allowed base info i b l buf t).1

/-- Below the directory `b` there are the files of the torrent with their contents, and the directories they are in; the
rest is as in `t`. -/
structure Stored (info : Info) (content : Bytes) (b : Loc) (t t' : Tree) : Prop where
  files : ∀ i (h : i < (storedFiles info).length),
    t'.get? (b ++ (storedFiles info)[i].path) = some (.file (fileBytes (storedFiles info) content i h))
  dirs : ∀ q, ProperAncestor (storedFiles info) q → t'.get? (b ++ q) = some .dir
  rest : ∀ l, (∀ f ∈ storedFiles info, l ≠ b ++ f.path) → (∀ q, ProperAncestor (storedFiles info) q → l ≠ b ++ q) →
    t'.get? l = t.get? l

end Nargun.Spec
