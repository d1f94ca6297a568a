import Verif.Model.DirBuilder

/-! # Model of `create_dirs` of `src/fs/multi_file_rw.rs` on a system where every call may fail

In `DirBuilder` a directory can be made at a location or not, and `remove_dir_all` never fails. Here every single call may be
refused, for any reason, and `remove_dir_all` may stop at any point. Still no links. -/

namespace Nargun.DirBuilder

/-- `tokio::fs::remove_dir_all` on the directory at `l` when it ends with an error: it removes what is at or below `l` one by
one, a directory only when nothing is in it any more, and stops somewhere. -/
inductive Removing (l : Loc) : Tree → Tree → Prop
  | stop {t} : Removing l t t
  | one {t t' k} : l <+: k → (∀ c q, t.get? (k ++ c :: q) = none) → Removing l (t.erase k) t' → Removing l t t'

/-- `multi_file_rw.rs:159-164`: the loop of `create_dirs`, from the first tree to the second. -/
inductive Loop (workingDir : Bytes) : List Bytes → Tree → Tree → Res Unit → Prop
  | done {t} : Loop workingDir [] t t (.ok ())
  | made {dir dirs t t1 t' r} : t.mkdir (fun _ => true) dir = (t1, .ok ()) → Loop workingDir dirs t1 t' r →
      Loop workingDir (dir :: dirs) t t' r
  /-- lines 161-162: `bail!` with the error of `create` -/
  | cleaned {dir dirs t} : Loop workingDir (dir :: dirs) t (t.removeDirAll workingDir) .err
  /-- line 161: the `?` after `remove_dir_all` -/
  | stuck {dir dirs t t' l} : t.locate workingDir = some l → Removing l t t' → Loop workingDir (dir :: dirs) t t' .err

/-- `multi_file_rw.rs:154-167` `create_dirs`. -/
inductive Creates (workingDir : Bytes) (dirs : List Bytes) : Tree → Tree → Res Unit → Prop
  /-- line 157: the `?` -/
  | refused {t} : Creates workingDir dirs t t .err
  | made {t t1 t' r} : t.mkdir (fun _ => true) workingDir = (t1, .ok ()) → Loop workingDir dirs t1 t' r →
      Creates workingDir dirs t t' r

/-- `multi_file_rw.rs:142-152` `build_dir_tree`; `order` is the order in which the set of directories is iterated over. -/
def Builds (baseDir torrentDir : Bytes) (order : List Bytes) (t t' : Tree) (r : Res Unit) : Prop :=
  Creates (workingDir baseDir torrentDir) (dirsByAscDepth (workingDir baseDir torrentDir) order) t t' r

end Nargun.DirBuilder
