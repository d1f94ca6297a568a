import Verif.Model.OpenFiles
import Verif.Spec.Storage

/-! # Specification of the storage on a device that writes in the background -/

namespace Nargun.Spec

open Nargun

/-- Where a file of a torrent is: the names of its path below a directory, with slashes between them. -/
def filePath (base : Bytes) (f : TorrentFile) : Bytes := base ++ ascii "/" ++ (ascii "/").intercalate f.path

/-- A history of calls on the storage, with any outcome: blocks are read, and pieces of the torrent are written. -/
inductive DeviceHistory (dev : Device) (base : Bytes) (info : Info) : OpenFiles → List FsOp → OpenFiles → Prop
  | nil (s : OpenFiles) : DeviceHistory dev base info s [] s
  | write {s0 s ops idx data} : DeviceHistory dev base info s0 ops s → PieceOf info idx data →
      DeviceHistory dev base info s0 (ops ++ [.write idx data]) (dev.writePiece base info idx data s).1
  | read {s0 s ops i b l buf} : DeviceHistory dev base info s0 ops s →
      DeviceHistory dev base info s0 (ops ++ [.read i b l buf]) (dev.readBlock base info i b l buf s).1

/-- The files of the torrent can be opened, and are not there. -/
structure Vacant (dev : Device) (base : Bytes) (info : Info) (d : Disk) : Prop where
  openable : ∀ f ∈ storedFiles info, dev.openable (filePath base f) = true
  absent : ∀ f ∈ storedFiles info, d.get? (filePath base f) = none

end Nargun.Spec
