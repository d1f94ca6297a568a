import Verif.Model.DirBuilder

/-! # Specification of the directory tree of a torrent -/

namespace Nargun.Spec

open Nargun

/-- A name that stands for itself in a path: not empty, no slash, not `.` or `..`. -/
def NormalName (c : Bytes) : Prop := c ≠ [] ∧ 47#8 ∉ c ∧ c ≠ ascii "." ∧ c ≠ ascii ".."

/-- All files have paths of such names. -/
def NormalFiles (files : List TorrentFile) : Prop := ∀ f ∈ files, ∀ c ∈ f.path, NormalName c

/-- `q` is a directory above one of the files, inside the torrent's directory. -/
def ProperAncestor (files : List TorrentFile) (q : List Bytes) : Prop :=
  q ≠ [] ∧ ∃ f ∈ files, ∃ rest, rest ≠ [] ∧ f.path = q ++ rest

/-- `base` leads to the directory `b`. -/
def LeadsTo (t : Tree) (base : Bytes) (b : Loc) : Prop := t.walk [] (names base) = some b

/-- The path of a directory below `dir`. -/
def dirPath (dir : Bytes) (q : List Bytes) : Bytes := dir ++ (q.map (· ++ ascii "/")).flatten

end Nargun.Spec
