import Verif.Model.Memory
import Verif.Props.Metainfo

/-! # C144: memory is given back as it was taken -/

namespace Nargun.Spec

open Nargun

/-- What Rust demands of a vector of items of the given size and alignment: its memory is one block of exactly the size of
the items there is room for, with that alignment, and there are no more items than there is room for. -/
structure SoundVec (h : Heap) (v : RawVec) (size align : Nat) : Prop where
  block : ∃ b, h.get? v.addr = some b ∧ b.bytes.length = v.cap * size ∧ b.align = align
  room : v.len ≤ v.cap

end Nargun.Spec

namespace Nargun

open Spec

/-- C144, for vectors of bytes with a capacity that is a multiple of 20: the vector of the hashes is sound, its hashes are
the ones of the model of the torrent file (C58), and dropping it frees exactly the block of the bytes. Missing: other
capacities (`C144_mismatch_violated`). -/
theorem C144_sound_partial (h : Heap) (raw v : RawVec) (hs : SoundVec h raw 1 1) (hcap : raw.cap % 20 = 0)
    (hv : deserializePiecesRaw raw = .ok v) :
    SoundVec h v 20 1 ∧
    (∃ bytes ids, raw.items 1 h = some bytes ∧ deserializePieces bytes = .ok ids ∧ ids.length = v.len ∧
      v.items 20 h = some (ids.map (·.bytes)).flatten) ∧
    v.drop 20 1 h = some (h.erase raw.addr) := by
  obtain ⟨⟨b, hb, hlen, hal⟩, hroom⟩ := hs
  unfold deserializePiecesRaw at hv
  split at hv
  · cases hv
  · rename_i hn
    simp only [not_or, Nat.not_lt, Nat.le_zero] at hn
    obtain ⟨h0, hm⟩ := hn
    cases hv
    have hm' : raw.len % 20 = 0 := hm
    have hL : raw.len / 20 * 20 = raw.len := by omega
    have hC : raw.cap / 20 * 20 = raw.cap := by omega
    have hitems : raw.items 1 h = some (b.bytes.take raw.len) := by
      unfold RawVec.items
      rw [hb]
      simp only [Nat.mul_one]
      rw [if_pos (by omega)]
    have htl : (b.bytes.take raw.len).length = raw.len := by rw [List.length_take]; omega
    refine ⟨⟨⟨b, hb, ?_, hal⟩, ?_⟩, ?_, ?_⟩
    · show b.bytes.length = raw.cap / 20 * 20
      omega
    · show raw.len / 20 ≤ raw.cap / 20
      omega
    · obtain ⟨ids, hids⟩ := (C58_accepted (b.bytes.take raw.len)).mpr
        ⟨fun hnil => h0 (by rw [hnil] at htl; exact htl.symm), by rw [htl]; exact hm'⟩
      have hflat := ((C58_pieces _ ids).mp hids).2
      refine ⟨_, ids, hitems, hids, ?_, ?_⟩
      · have := congrArg List.length hflat
        rw [htl, ids_flat_length] at this
        show ids.length = raw.len / 20
        omega
      · show RawVec.items ⟨raw.addr, raw.len / 20, raw.cap / 20⟩ 20 h = _
        unfold RawVec.items
        rw [hb]
        dsimp only
        rw [hL, if_pos (by omega), hflat, List.flatMap_def]
    · show RawVec.drop ⟨raw.addr, raw.len / 20, raw.cap / 20⟩ 20 1 h = _
      unfold RawVec.drop Heap.dealloc
      dsimp only
      rw [if_neg (by omega), hb]
      dsimp only
      rw [if_pos ⟨by omega, hal⟩]

/-- C144 is violated: when the vector of bytes has room for a number of bytes that is not a multiple of 20, dropping the
hashes is undefined behaviour. -/
theorem C144_mismatch_violated (h : Heap) (raw v : RawVec) (hs : SoundVec h raw 1 1) (hcap : raw.cap % 20 ≠ 0)
    (hv : deserializePiecesRaw raw = .ok v) : ¬ SoundVec h v 20 1 ∧ v.drop 20 1 h = none := by
  obtain ⟨⟨b, hb, hlen, hal⟩, hroom⟩ := hs
  unfold deserializePiecesRaw at hv
  split at hv
  · cases hv
  · rename_i hn
    simp only [not_or, Nat.not_lt, Nat.le_zero] at hn
    obtain ⟨h0, hm⟩ := hn
    cases hv
    have hm' : raw.len % 20 = 0 := hm
    constructor
    · rintro ⟨⟨b', hb', hlen', -⟩, -⟩
      rw [hb] at hb'
      cases hb'
      replace hlen' : b.bytes.length = raw.cap / 20 * 20 := hlen'
      omega
    · show RawVec.drop ⟨raw.addr, raw.len / 20, raw.cap / 20⟩ 20 1 h = _
      unfold RawVec.drop Heap.dealloc
      dsimp only
      rw [if_neg (by omega), hb]
      dsimp only
      rw [if_neg (by omega)]

/-- C144 for a vector that has no more room than it needs, as a copy of a slice has (this is how `bendy` hands over the
string): all is well. -/
theorem C144_exact_partial (h : Heap) (raw v : RawVec) (hs : SoundVec h raw 1 1) (hcap : raw.cap = raw.len)
    (hv : deserializePiecesRaw raw = .ok v) : SoundVec h v 20 1 ∧ v.drop 20 1 h = some (h.erase raw.addr) := by
  have hm : raw.cap % 20 = 0 := by
    unfold deserializePiecesRaw at hv
    split at hv
    · cases hv
    · rename_i hn
      have : ID_LEN = 20 := rfl
      rw [this] at hn
      omega
  obtain ⟨h1, -, h2⟩ := C144_sound_partial h raw v hs hm hv
  exact ⟨h1, h2⟩

/-- Two hashes in a block of 40 bytes, next to another block. -/
example : SoundVec [(0, ⟨[1], 1⟩), (64, ⟨List.replicate 40 7, 1⟩)] ⟨64, 40, 40⟩ 1 1 ∧
    deserializePiecesRaw ⟨64, 40, 40⟩ = .ok ⟨64, 2, 2⟩ ∧
    RawVec.drop ⟨64, 2, 2⟩ 20 1 [(0, ⟨[1], 1⟩), (64, ⟨List.replicate 40 7, 1⟩)] = some [(0, ⟨[1], 1⟩)] :=
  ⟨⟨⟨_, rfl, rfl, rfl⟩, Nat.le_refl _⟩, rfl, by decide⟩

/-- The same bytes in a block of 64 bytes, as a vector has that was filled byte by byte. -/
example : SoundVec [(64, ⟨List.replicate 64 7, 1⟩)] ⟨64, 40, 64⟩ 1 1 ∧
    deserializePiecesRaw ⟨64, 40, 64⟩ = .ok ⟨64, 2, 3⟩ ∧
    RawVec.drop ⟨64, 2, 3⟩ 20 1 [(64, ⟨List.replicate 64 7, 1⟩)] = none :=
  ⟨⟨⟨_, rfl, rfl, rfl⟩, by decide⟩, rfl, by decide⟩

end Nargun
