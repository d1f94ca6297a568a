import Verif.Model.Prelude

namespace Nargun.Spec

/-- The bytes of an ASCII text. -/
def ascii (s : String) : Bytes := s.toList.map fun c => BitVec.ofNat 8 c.toNat

end Nargun.Spec
