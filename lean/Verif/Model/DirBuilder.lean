import Verif.Model.Fs

/-! # Model of `mod dir_builder` of `src/fs/multi_file_rw.rs`, and of the directories of the operating system

The tree of directories and files, by location: the list of names from the root. Simplifications: no links; a relative
path starts at the root; permissions, full disks etc. are the parameter `allowed` (locations where a directory may be
made); `remove_dir_all` never fails. -/

namespace Nargun

open Spec (ascii)

/-- A place in the tree: the names from the root. -/
abbrev Loc := List Bytes

/-- What is at a location. -/
inductive Entry where
  | dir
  | file (content : Bytes)
  deriving DecidableEq

/-- Everything below the root, which is a directory. -/
abbrev Tree := Map Loc Entry

/-- Whether there is a directory at a location. -/
def Tree.isDir (t : Tree) (l : Loc) : Bool := l.isEmpty || t.get? l == some .dir

/-- The parts of a path between slashes (POSIX pathname resolution). -/
def splitSlash : Bytes → List Bytes
  | [] => [[]]
  | c :: cs =>
    if c = 47#8 then [] :: splitSlash cs
    else match splitSlash cs with
      | [] => [[c]]
      | w :: ws => (c :: w) :: ws

/-- The names of a path; repeated and final slashes do not count. -/
def names (path : Bytes) : List Bytes := (splitSlash path).filter (fun c => !c.isEmpty)

/-- Following names from a directory: `.` stays, `..` goes up, any other name must be a directory. -/
def Tree.walk (t : Tree) : Loc → List Bytes → Option Loc
  | cur, [] => some cur
  | cur, c :: cs =>
    if c = ascii "." then t.walk cur cs
    else if c = ascii ".." then t.walk cur.dropLast cs
    else if t.isDir (cur ++ [c]) then t.walk (cur ++ [c]) cs
    else none

/-- The location that a path names, whether or not something is there: all names but the last are directories. A
path that ends in `.` or `..` names a directory. -/
def Tree.locate (t : Tree) (path : Bytes) : Option Loc :=
  match (names path).getLast? with
  | none => some []
  | some c =>
    if c = ascii "." ∨ c = ascii ".." then t.walk [] (names path)
    else (t.walk [] (names path).dropLast).map (· ++ [c])

/-- `mkdir(2)`, as used by `DirBuilder` with `recursive(false)`. -/
def Tree.mkdir (allowed : Loc → Bool) (t : Tree) (path : Bytes) : Tree × Res Unit :=
  match t.locate path with
  | none => (t, .err)
  | some l =>
    if l.isEmpty ∨ t.contains l ∨ allowed l = false then (t, .err)
    else (t.insert l .dir, .ok ())

/-- `remove_dir_all`. -/
def Tree.removeDirAll (t : Tree) (path : Bytes) : Tree :=
  match t.locate path with
  | none => t
  | some l => t.filter (fun e => !l.isPrefixOf e.1)

namespace DirBuilder

/-- `multi_file_rw.rs:172-178`: the strings inserted for one file: the names before the last one, each with a slash. -/
def ancestorStrings : Bytes → List Bytes → List Bytes
  | _, [] => []
  | path, c :: cs =>
    let path := path ++ c ++ ascii "/"
    path :: ancestorStrings path cs

/-- `multi_file_rw.rs:170-180`: everything inserted into the set, in order. -/
def inserted (files : List TorrentFile) : List Bytes :=
  (files.filter (fun f => decide (f.path.length > 1))).flatMap (fun f => ancestorStrings [] f.path.dropLast)

/-- `into_iter` on a `HashSet`: every element once, in any order. -/
def SetOrder (order ins : List Bytes) : Prop := order.Nodup ∧ ∀ x, x ∈ order ↔ x ∈ ins

/-- `multi_file_rw.rs:169-190` `dirs_by_asc_depth`; `order` is the order in which the set is iterated over. The sort is
stable (`sort_by_cached_key`). -/
def dirsByAscDepth (workingDir : Bytes) (order : List Bytes) : List Bytes :=
  (order.map (workingDir ++ ·)).mergeSort (fun a b => decide (a.count 47#8 ≤ b.count 47#8))

/-- `multi_file_rw.rs:159-164`: the loop of `create_dirs`. -/
def createLoop (allowed : Loc → Bool) (workingDir : Bytes) : List Bytes → Tree → Tree × Res Unit
  | [], t => (t, .ok ())
  | dir :: dirs, t =>
    match t.mkdir allowed dir with
    | (t', .ok ()) => createLoop allowed workingDir dirs t'
    | (t', _) => (t'.removeDirAll workingDir, .err)

/-- `multi_file_rw.rs:154-167` `create_dirs`. -/
def createDirs (allowed : Loc → Bool) (workingDir : Bytes) (dirs : List Bytes) (t : Tree) : Tree × Res Unit :=
  match t.mkdir allowed workingDir with
  | (t', .ok ()) => createLoop allowed workingDir dirs t'
  | (t', _) => (t', .err)

/-- `multi_file_rw.rs:147` `working_dir`. -/
def workingDir (baseDir torrentDir : Bytes) : Bytes := baseDir ++ ascii "/" ++ torrentDir ++ ascii "/"

/-- `multi_file_rw.rs:142-152` `build_dir_tree`. -/
def buildDirTree (allowed : Loc → Bool) (baseDir torrentDir : Bytes) (order : List Bytes) (t : Tree) :
    Tree × Res Unit :=
  createDirs allowed (workingDir baseDir torrentDir) (dirsByAscDepth (workingDir baseDir torrentDir) order) t

end DirBuilder

/-- `multi_file_rw.rs:19-34` `MultiFileRw::new`, as far as the tree is concerned: an error is unwrapped. -/
def MultiFile.new (allowed : Loc → Bool) (baseDir torrentDir : Bytes) (order : List Bytes) (t : Tree) :
    Tree × Res Unit :=
  match DirBuilder.buildDirTree allowed baseDir torrentDir order t with
  | (t', .ok ()) => (t', .ok ())
  | (t', _) => (t', .panic)

end Nargun
