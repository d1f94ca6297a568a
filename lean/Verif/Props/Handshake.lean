import Verif.Model.Handshake
import Verif.Spec.Ascii
import Verif.Lemmas.Message

/-! # C18-C19: the handshake -/

namespace Nargun
open Spec

/-- The BitTorrent handshake (BEP 3): 19, the protocol name, eight reserved bytes (the last one announces DHT
support, BEP 5), info-hash and peer id. -/
def Spec.handshakeBytes (infoHash peerId : ID) : Bytes :=
  [19#8] ++ ascii "BitTorrent protocol" ++ List.replicate 7 0#8 ++ [1#8] ++ infoHash.bytes ++ peerId.bytes

/-- C18. What is sent is the 68-byte handshake with the torrent's info-hash and our peer id, whatever comes
back. -/
theorem C18_handshake_sent (infoHash peerId : ID) (received : Bytes) :
    (initiateHandshake infoHash peerId received).1 = handshakeBytes infoHash peerId ∧
    (initiateHandshake infoHash peerId received).1.length = 68 := by
  have e : (initiateHandshake infoHash peerId received).1 = handshakeBytes infoHash peerId := by
    simp only [initiateHandshake, Handshake.asRef, Handshake.new, handshakeBytes,
      show PSTR = ascii "BitTorrent protocol" by decide, PSTRLEN]
    simp [List.replicate_succ]
  refine ⟨e, ?_⟩
  rw [e]
  simp only [handshakeBytes, List.length_append, infoHash.len_eq, peerId.len_eq, ID_LEN,
    show (ascii "BitTorrent protocol").length = 19 by decide, List.length_replicate, List.length_cons,
    List.length_nil]

/-- C18. A byte string is accepted exactly when it has 68 bytes and starts with 19 and the protocol name. -/
theorem C18_handshake_accepted (infoHash peerId : ID) (received : Bytes) :
    (initiateHandshake infoHash peerId received).2 = .ok () ↔
      received.length = 68 ∧ received.take 20 = [19#8] ++ ascii "BitTorrent protocol" := by
  simp only [initiateHandshake]
  by_cases h : received.length = 68
  · rw [if_neg (by simpa using h)]
    simp only [h, Nat.sub_self, List.replicate_zero, List.append_nil, true_and]
    unfold Handshake.checkValidity
    rw [if_neg (by simpa using h)]
    cases received with
    | nil => simp at h
    | cons b r =>
      have hi : index (b :: r) 0 = .ok b := rfl
      have hs : sliceR (b :: r) 1 (PSTRLEN.toNat + 1) = .ok (r.take 19) := by
        rw [show PSTRLEN.toNat = 19 by decide, sliceR, if_pos (by omega)]
        rfl
      simp only [hi, hs, Res.ok_bind]
      rw [show PSTR = ascii "BitTorrent protocol" by decide, show PSTRLEN = 19#8 from rfl]
      by_cases hb : b = 19#8 <;> by_cases hp : r.take 19 = ascii "BitTorrent protocol" <;> simp [hb, hp]
  · rw [if_pos (by simpa using h)]
    simp [h]

/-- C18. The only other outcome is a refusal, never a panic. -/
theorem C18_handshake_no_panic (infoHash peerId : ID) (received : Bytes) :
    (initiateHandshake infoHash peerId received).2 ≠ .panic := by
  simp only [initiateHandshake]
  by_cases h : received.length = 68
  · rw [if_neg (by simpa using h)]
    simp only [h, Nat.sub_self, List.replicate_zero, List.append_nil]
    unfold Handshake.checkValidity
    rw [if_neg (by simpa using h)]
    cases received with
    | nil => simp at h
    | cons b r =>
      have hs : sliceR (b :: r) 1 (PSTRLEN.toNat + 1) = .ok (r.take 19) := by
        rw [show PSTRLEN.toNat = 19 by decide, sliceR, if_pos (by omega)]
        rfl
      simp only [show index (b :: r) 0 = .ok b from rfl, hs, Res.ok_bind]
      split <;> simp
  · rw [if_pos (by simpa using h)]
    simp

/-- C18. Every handshake a client of this kind sends is accepted by another one. -/
theorem C18_own_handshake_accepted (ih ih' pid pid' : ID) (r : Bytes) :
    (initiateHandshake ih pid (initiateHandshake ih' pid' r).1).2 = .ok () := by
  rw [C18_handshake_accepted]
  obtain ⟨h1, h2⟩ := C18_handshake_sent ih' pid' r
  refine ⟨h2, ?_⟩
  rw [h1, handshakeBytes]
  simp only [List.append_assoc]
  rw [← List.append_assoc, List.take_append_of_le_length (by decide)]
  exact List.take_of_length_le (by decide)

/-- C19, the part that holds: a correct handshake of the same torrent that arrives in one read is accepted.
Missing: refusal of other torrents and independence of segmentation, both false (below). -/
theorem C19_same_torrent_partial (ih pid pid' : ID) :
    (initiateHandshake ih pid (handshakeBytes ih pid')).2 = .ok () := by
  have := C18_own_handshake_accepted ih ih pid pid' []
  rwa [(C18_handshake_sent ih pid' []).1] at this

/-- C19 is violated: a peer serving any other torrent is accepted. -/
theorem C19_other_torrent_violated (ih ih' pid pid' : ID) (_ : ih ≠ ih') :
    (initiateHandshake ih pid (handshakeBytes ih' pid')).2 = .ok () := by
  have := C18_own_handshake_accepted ih ih' pid pid' []
  rwa [(C18_handshake_sent ih' pid' []).1] at this

/-- C19 is violated: a correct handshake whose first read returns only a part of it is refused. -/
theorem C19_segmented_violated (ih pid pid' : ID) (n : Nat) (hn : n < 68) :
    (initiateHandshake ih pid ((handshakeBytes ih pid').take n)).2 = .err := by
  have h := (C18_handshake_sent ih pid' []).2
  rw [(C18_handshake_sent ih pid' []).1] at h
  simp only [initiateHandshake]
  rw [if_pos]
  simp [h]; omega

/-- Two different torrents exist. -/
example : (⟨List.replicate 20 0#8, by simp [ID_LEN]⟩ : ID) ≠ ⟨List.replicate 20 1#8, by simp [ID_LEN]⟩ := by
  simp [ID.mk.injEq, List.replicate_succ]

/-- C18 distinguishes: an answer of 68 bytes with another protocol name is refused, and so are 67 bytes of a right one; the right
one is accepted. -/
example : let id : ID := ⟨List.replicate 20 7#8, by simp [ID_LEN]⟩
    (initiateHandshake id id ([19#8] ++ ascii "BitTorrent protocoL" ++ List.replicate 48 0#8)).2 = .err ∧
    (initiateHandshake id id ((handshakeBytes id id).take 67)).2 = .err ∧
    (initiateHandshake id id (handshakeBytes id id)).2 = .ok () := by
  decide +kernel

end Nargun
