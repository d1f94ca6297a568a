import Verif.Lemmas.TorrentManager

/-! # The counters of available pieces in all histories, wrap-around included -/

namespace Nargun

open Spec

theorem u16Add_mod {p : Profile} {a r : Nat} (h : u16Add p a 1 = .ok r) : r = (a + 1) % 65536 := by
  simp only [u16Add] at h
  split at h
  · cases h; omega
  · cases p
    · cases h
    · simp only [Res.ok.injEq] at h; omega

theorem u16Sub_mod {p : Profile} {a r : Nat} (ha : a < 65536) (h : u16Sub p a 1 = .ok r) :
    r < 65536 ∧ (r + 1) % 65536 = a := by
  simp only [u16Sub] at h
  split at h
  · cases h; omega
  · cases p
    · cases h
    · simp only [Res.ok.injEq] at h; omega

namespace TM

/-- All numbers of a list fit 16 bits. -/
def Small (fs : List Nat) : Prop := ∀ i, fs.getD i 0 < 65536

theorem Small.tail {f : Nat} {fs : List Nat} (h : Small (f :: fs)) : Small fs := fun i => by simpa using h (i + 1)

theorem Small.cons {f : Nat} {fs : List Nat} (h0 : f < 65536) (h : Small fs) : Small (f :: fs) := by
  intro i
  cases i with
  | zero => simpa using h0
  | succ i => simpa using h i

theorem addBits_mod {p : Profile} {fs fs' : List Nat} {bs : List Bool} (hs : Small fs)
    (h : addBits p fs bs = .ok fs') :
    Small fs' ∧ ∀ i, i < fs.length → fs'.getD i 0 = (fs.getD i 0 + (bs.getD i false).toNat) % 65536 := by
  induction fs generalizing bs fs' with
  | nil =>
    have : fs' = [] := List.length_eq_zero_iff.mp (addBits_length h)
    subst this
    exact ⟨hs, by simp⟩
  | cons f fs ih =>
    have h0 : f < 65536 := by simpa using hs 0
    cases bs with
    | nil =>
      cases h
      exact ⟨hs, fun i _ => by have := hs i; simp at this ⊢; omega⟩
    | cons b bs =>
      simp only [addBits] at h
      obtain ⟨f', hf, h⟩ := Res.bind_eq_ok.mp h
      obtain ⟨r, hr, h⟩ := Res.bind_eq_ok.mp h
      cases h
      obtain ⟨h1, h2⟩ := ih hs.tail hr
      have hf' : f' = (f + b.toNat) % 65536 := by
        cases b with
        | true => exact u16Add_mod (by simpa using hf)
        | false => simp at hf; subst hf; simp; omega
      refine ⟨Small.cons (by omega) h1, fun i hi => ?_⟩
      cases i with
      | zero => simpa using hf'
      | succ i => simpa using h2 i (by simpa using hi)

theorem subBits_mod {p : Profile} {fs fs' : List Nat} {bs : List Bool} (hs : Small fs)
    (h : subBits p fs bs = .ok fs') :
    Small fs' ∧ ∀ i, i < fs.length → (fs'.getD i 0 + (bs.getD i false).toNat) % 65536 = fs.getD i 0 := by
  induction fs generalizing bs fs' with
  | nil =>
    have : fs' = [] := List.length_eq_zero_iff.mp (subBits_length h)
    subst this
    exact ⟨hs, by simp⟩
  | cons f fs ih =>
    have h0 : f < 65536 := by simpa using hs 0
    cases bs with
    | nil =>
      cases h
      exact ⟨hs, fun i _ => by have := hs i; simp at this ⊢; omega⟩
    | cons b bs =>
      simp only [subBits] at h
      obtain ⟨f', hf, h⟩ := Res.bind_eq_ok.mp h
      obtain ⟨r, hr, h⟩ := Res.bind_eq_ok.mp h
      cases h
      obtain ⟨h1, h2⟩ := ih hs.tail hr
      have hf' : f' < 65536 ∧ (f' + b.toNat) % 65536 = f := by
        cases b with
        | true => exact u16Sub_mod h0 (by simpa using hf)
        | false => simp at hf; subst hf; simp; omega
      refine ⟨Small.cons hf'.1 h1, fun i hi => ?_⟩
      cases i with
      | zero => simpa using hf'.2
      | succ i => simpa using h2 i (by simpa using hi)

/-- The counters move with the holders, modulo 2^16. -/
def Moves (n : Nat) (s s' : TM) : Prop :=
  Small s'.frequencyMap ∧
    ∀ i < n, (s'.frequencyMap.getD i 0 + s.cnt i) % 65536 = (s.frequencyMap.getD i 0 + s'.cnt i) % 65536

theorem Moves.of_eq {n : Nat} {s s' : TM} (hs : Small s.frequencyMap) (hf : s'.frequencyMap = s.frequencyMap)
    (hc : ∀ i < n, s'.cnt i = s.cnt i) : Moves n s s' :=
  ⟨by rw [hf]; exact hs, fun i hi => by rw [hf, hc i hi]⟩

theorem flag_moves {n : Nat} {s : TM} (hi : Inv n s) (hs : Small s.frequencyMap) (peer : Peer) (g : PeerInfo → PeerInfo)
    (hh : ∀ i, (g i).haves = i.haves) : Moves n s { s with activePeers := s.activePeers.modify peer g } := by
  refine Moves.of_eq hs rfl fun i _ => ?_
  simp only [cnt]
  cases hg : s.activePeers.get? peer with
  | none => rw [Map.modify_of_not_mem hg]
  | some o =>
    have := Map.count_modify (f := fun x : PeerInfo => bitAt x.haves.data i) hi.wf (g := g) hg
    simp only [hh] at this
    omega

theorem inactive_moves {n : Nat} {p : Profile} {s s' : TM} (hi : Inv n s) (hs : Small s.frequencyMap)
    (peer : Peer) (st : Status) (h : s.markPeerAsInactive p peer st = .ok s') : Moves n s s' := by
  cases hg : s.activePeers.get? peer with
  | none =>
    simp only [markPeerAsInactive, hg] at h
    cases h
    exact Moves.of_eq hs rfl fun _ _ => rfl
  | some info =>
    have hio := get?_infoOk hi hg
    have hc : ∀ i, Map.count (fun x : PeerInfo => bitAt x.haves.data i) (s.activePeers.erase peer) +
        (bitAt info.haves.data i).toNat = s.cnt i := fun i => Map.count_erase hi.wf hg
    simp only [markPeerAsInactive, hg, Bitmap.toBools_eq hio.2.1, Res.ok_bind] at h
    obtain ⟨f, hf, h⟩ := Res.bind_eq_ok.mp h
    cases h
    obtain ⟨h1, h2⟩ := subBits_mod hs hf
    refine ⟨h1, fun i hlt => ?_⟩
    have h3 := h2 i (by rw [hi.freq]; exact hlt)
    rw [bits_getD, if_pos (by rw [hio.1]; exact hlt)] at h3
    have := hc i
    show (f.getD i 0 + s.cnt i) % 65536 = (s.frequencyMap.getD i 0 + Map.count _ (s.activePeers.erase peer)) % 65536
    omega

theorem have_moves {n : Nat} {p : Profile} {s s' : TM} (hi : Inv n s) (hs : Small s.frequencyMap) (peer : Peer) (k : Nat)
    (h : s.handleHave p peer k = .ok s') : Moves n s s' := by
  cases hg : s.activePeers.get? peer with
  | none =>
    simp only [handleHave, hg] at h
    cases h
    exact Moves.of_eq hs rfl fun _ _ => rfl
  | some info =>
    have hio := get?_infoOk hi hg
    simp only [handleHave, hg] at h
    obtain ⟨⟨h', old⟩, hch, h⟩ := Res.bind_eq_ok.mp h
    have hlt : k < 8 * info.haves.data.length := by
      apply Classical.byContradiction
      intro hn
      rw [Bitmap.change_of_ge _ _ _ (by omega)] at hch
      cases hch
    obtain ⟨b', c1, c2, c3, c4, c5⟩ := Bitmap.change_set hio.2.1 hlt
    rw [c1] at hch
    cases hch
    have hbits : ∀ j, bitAt h'.data j = (bitAt info.haves.data j || decide (j = k)) := by
      intro j
      rw [c4]
      by_cases hj : j = k <;> simp [hj]
    have hcnt : ∀ i, Map.count (fun x : PeerInfo => bitAt x.haves.data i)
        (s.activePeers.modify peer (fun x => { x with haves := h' })) + (bitAt info.haves.data i).toNat =
        s.cnt i + (bitAt h'.data i).toNat := fun i =>
      Map.count_modify (f := fun x : PeerInfo => bitAt x.haves.data i) hi.wf
        (g := fun x => { x with haves := h' }) hg
    by_cases ho : bitAt info.haves.data k
    · simp only [ho, if_true] at h
      cases h
      refine Moves.of_eq hs rfl fun i _ => ?_
      have := hcnt i
      rw [hbits i] at this
      show Map.count (fun x : PeerInfo => bitAt x.haves.data i) (s.activePeers.modify peer (fun x => { x with haves := h' })) = _
      by_cases hik : i = k
      · simp [hik, ho] at this ⊢; omega
      · simp [hik] at this ⊢; omega
    · simp only [ho, Bool.false_eq_true, if_false] at h
      obtain ⟨f, hf, h⟩ := Res.bind_eq_ok.mp h
      obtain ⟨f', hf', h⟩ := Res.bind_eq_ok.mp h
      cases h
      have hfv := index_eq_ok.mp hf
      have hfe : s.frequencyMap.getD k 0 = f := by simp [List.getD, hfv]
      have hkl : k < s.frequencyMap.length := by
        apply Classical.byContradiction
        intro hn
        rw [List.getElem?_eq_none (by omega)] at hfv
        cases hfv
      have hf1 := u16Add_mod hf'
      have hset : ∀ i, (s.frequencyMap.set k f').getD i 0 = if i = k then f' else s.frequencyMap.getD i 0 := by
        intro i
        by_cases hik : i = k
        · subst hik; simp [List.getD, List.getElem?_set, hkl]
        · simp only [List.getD, List.getElem?_set]
          rw [if_neg (fun h => hik h.symm), if_neg hik]
      refine ⟨fun i => ?_, fun i _ => ?_⟩
      · show (s.frequencyMap.set k f').getD i 0 < _
        rw [hset]
        split
        · omega
        · exact hs i
      · have := hcnt i
        rw [hbits i] at this
        show ((s.frequencyMap.set k f').getD i 0 + s.cnt i) % 65536 =
          (s.frequencyMap.getD i 0 +
          Map.count (fun x : PeerInfo => bitAt x.haves.data i) (s.activePeers.modify peer (fun x => { x with haves := h' }))) % 65536
        rw [hset]
        by_cases hik : i = k
        · subst hik
          rw [if_pos rfl, hfe]
          simp [ho] at this
          omega
        · rw [if_neg hik]
          simp [hik] at this
          omega

theorem bitfield_moves {n : Nat} {p : Profile} {s s' : TM} (hi : Inv n s) (hs : Small s.frequencyMap) (peer : Peer)
    (b : Bytes) (h : s.acceptBitfield p b peer = .ok s') : Moves n s s' := by
  have keep : Moves n s s := Moves.of_eq hs rfl fun _ _ => rfl
  cases hg : s.activePeers.get? peer with
  | none =>
    simp only [acceptBitfield, hg] at h
    cases h
    exact keep
  | some info =>
    have hio := get?_infoOk hi hg
    simp only [acceptBitfield, hg] at h
    by_cases hw : info.haves.weight > 0
    · rw [if_pos hw] at h
      cases h
      exact keep
    · rw [if_neg hw] at h
      have hz := (Bitmap.weight_zero_iff info.haves).mp (by omega)
      have hzall : ∀ j, bitAt info.haves.data j = false := by
        intro j
        by_cases hj : j < 8 * info.haves.data.length
        · exact hz j hj
        · exact Bitmap.bitAt_ge (by omega)
      by_cases hl : b.length ≠ info.haves.data.length
      · simp only [Bitmap.replaceData, if_pos hl] at h
        cases h
        exact keep
      · simp only [Bitmap.replaceData, if_neg hl] at h
        have hl' : b.length = info.haves.data.length := by simpa using hl
        obtain ⟨bits, hbits, h⟩ := Res.bind_eq_ok.mp h
        obtain ⟨f, hf, h⟩ := Res.bind_eq_ok.mp h
        cases h
        have hwf : Bitmap.WF { info.haves with data := b } := ⟨hio.2.1.1, by
          show b.length = _
          rw [hl']; exact hio.2.1.2⟩
        rw [Bitmap.toBools_eq hwf] at hbits
        cases hbits
        obtain ⟨h1, h2⟩ := addBits_mod hs hf
        refine ⟨h1, fun i hlt => ?_⟩
        have hc := Map.count_modify (f := fun x : PeerInfo => bitAt x.haves.data i) hi.wf
          (g := fun x => { x with haves := { info.haves with data := b } }) hg
        have h2 := h2 i (by rw [hi.freq]; exact hlt)
        rw [bits_getD (b := { info.haves with data := b })] at h2
        have hlt' : i < info.haves.len := by rw [hio.1]; exact hlt
        simp only [hlt', if_true, hzall, Bool.toNat_false] at h2 hc
        show (f.getD i 0 + s.cnt i) % 65536 = (s.frequencyMap.getD i 0 +
          Map.count (fun x : PeerInfo => bitAt x.haves.data i)
            (s.activePeers.modify peer (fun x => { x with haves := { info.haves with data := b } }))) % 65536
        simp only [cnt]
        omega

theorem handle_moves {n : Nat} {p : Profile} {s s' : TM} (hi : Inv n s) (hs : Small s.frequencyMap) (peer : Peer)
    (m : ConMessageType) (h : s.handleCommand p peer m = .ok s') : Moves n s s' := by
  cases m with
  | unreachable => exact inactive_moves hi hs peer _ h
  | disconnected => exact inactive_moves hi hs peer _ h
  | keepAlive => cases h; exact Moves.of_eq hs rfl fun _ _ => rfl
  | choke => cases h; exact flag_moves hi hs peer _ fun _ => rfl
  | unchoke => cases h; exact flag_moves hi hs peer _ fun _ => rfl
  | interested => cases h; exact flag_moves hi hs peer _ fun _ => rfl
  | notInterested => cases h; exact flag_moves hi hs peer _ fun _ => rfl
  | have_ k => exact have_moves hi hs peer _ h
  | bitfield b => exact bitfield_moves hi hs peer b h
  | request r => cases h
  | finishedPiece i bs => cases h
  | cancel r => cases h

/-! ## Peers that are connected to again -/

/-- The peer is active and holds piece `i`. -/
def has (m : Map Peer PeerInfo) (i : Nat) (q : Peer) : Bool :=
  match m.get? q with
  | some x => bitAt x.haves.data i
  | none => false

/-- The holders a batch replaces. -/
theorem addPeers_cnt {n : Nat} {ps : List Peer} {s s' : TM} (hi : Inv n s) (hl : s.activePeers.length + ps.length ≤ 10)
    (hnd : ps.Nodup) (h : addPeers ps s = .ok s') (i : Nat) :
    s'.cnt i + (ps.filter (has s.activePeers i)).length = s.cnt i := by
  induction ps generalizing s with
  | nil => cases h; simp
  | cons peer ps ih =>
    obtain ⟨info, n1, n2, n3, n4⟩ := info_new hi.npos
    have hz : ∀ i, bitAt info.haves.data i = false := fun i => congrFun (congrArg PeerView.announced n3) i
    have hone : ∃ s1, addPeers [peer] s = .ok s1 ∧ s1 = { s with connection := s.connection.connect peer, activePeers := s.activePeers.insert peer info } :=
      ⟨_, by simp only [addPeers, hi.loc.1, n1, Res.ok_bind], rfl⟩
    obtain ⟨s1, h1, rfl⟩ := hone
    obtain ⟨s1', a1, a2, _⟩ := addPeers_spec (ps := [peer]) hi (by simp at hl ⊢; omega)
    rw [h1] at a1
    cases a1
    simp only [addPeers, hi.loc.1, n1, Res.ok_bind] at h
    rw [List.nodup_cons] at hnd
    have hlen : (s.activePeers.insert peer info).length ≤ s.activePeers.length + 1 := by
      rw [Map.length_insert]; split <;> omega
    have := ih a2 (by
      show (s.activePeers.insert peer info).length + _ ≤ 10
      simp at hl; omega) hnd.2 h
    have hsame : ps.filter (has (s.activePeers.insert peer info) i) = ps.filter (has s.activePeers i) := by
      apply List.filter_congr
      intro q hq
      simp only [has]
      rw [Map.get?_insert, if_neg (by rintro rfl; exact hnd.1 hq)]
    simp only [hsame] at this
    have hstep : Map.count (fun x : PeerInfo => bitAt x.haves.data i) (s.activePeers.insert peer info) +
        (has s.activePeers i peer).toNat = s.cnt i := by
      simp only [has]
      cases hg : s.activePeers.get? peer with
      | none =>
        have := Map.count_insert_none (f := fun x : PeerInfo => bitAt x.haves.data i) (v := info) hg
        simp only [hz, Bool.toNat_false] at this
        simp only [cnt, Bool.toNat_false]; omega
      | some o =>
        have := Map.count_insert_some (f := fun x : PeerInfo => bitAt x.haves.data i) (v := info) hg
        simp only [hz, Bool.toNat_false] at this
        simp only [cnt]; omega
    have hcs : TM.cnt { s with connection := s.connection.connect peer, activePeers := s.activePeers.insert peer info } i =
      Map.count (fun x : PeerInfo => bitAt x.haves.data i) (s.activePeers.insert peer info) := rfl
    rw [hcs] at this
    rw [List.filter_cons]
    cases hh : has s.activePeers i peer <;> rw [hh] at hstep <;> simp at hstep ⊢ <;> omega

theorem tick_cnt {n : Nat} {p : Profile} {s s' : TM} {batch : List Peer} (hi : Inv n s)
    (h : s.beginTick p = .ok (s', batch)) (i : Nat) :
    s'.cnt i + (batch.filter (has s.activePeers i)).length = s.cnt i := by
  simp only [beginTick] at h
  obtain ⟨⟨s1, b⟩, h1, h⟩ := Res.bind_eq_ok.mp h
  obtain ⟨k, _, h⟩ := Res.bind_eq_ok.mp h
  cases h
  show s1.cnt i + _ = _
  have hl := hi.len
  have hsub : usizeSub p 10 s.activePeers.length = .ok (10 - s.activePeers.length) := by
    simp only [usizeSub]; rw [if_pos hl]
  simp only [refreshPeerList, hsub, Res.ok_bind] at h1
  by_cases hf : 10 - s.activePeers.length = 0
  · rw [if_pos hf] at h1
    cases h1
    simp
  · rw [if_neg hf] at h1
    obtain ⟨cands, b1, b2, b3, b4, b5⟩ := batch_eq hi.known s.inactivePeers (10 - s.activePeers.length)
    generalize hr : s.peers.returnBatch s.inactivePeers (10 - s.activePeers.length) = r at *
    have hwf : r.1.data.WF := by
      rw [← hr]
      exact Peers.step_wf (.batch (bad := s.inactivePeers) (limit := 10 - s.activePeers.length)) hi.known
    have hi' : Inv n { s with peers := r.1, inactivePeers := [] } :=
      ⟨hi.npos, hi.pieces, hi.loc, hi.act, hi.freq, hi.asg, hi.wf, hi.len, hi.infos, hi.conn, hi.weight, hwf⟩
    obtain ⟨s2, h2, h1⟩ := Res.bind_eq_ok.mp h1
    cases h1
    exact addPeers_cnt hi' (by
      show s.activePeers.length + r.2.length ≤ 10
      rw [b1, List.length_take]; omega) (by rw [b1]; exact (List.take_sublist _ _).nodup b2) h2 i

theorem rejoined_snoc (n : Nat) (es : List Event) (e : Event) (i : Nat) :
    rejoined n (es ++ [e]) i = rejoined n es i + rejoining n es i e := by
  simp only [rejoined, List.length_append, List.length_singleton, List.range_succ, List.map_append, List.sum_append,
    List.map_cons, List.map_nil, List.sum_cons, List.sum_nil, Nat.add_zero]
  congr 1
  · congr 1
    apply List.map_congr_left
    intro k hk
    rw [List.mem_range] at hk
    rw [List.getElem?_append_left hk, List.take_append_of_le_length (by omega)]
  · simp

theorem rejoined_mono (n : Nat) (es es' : List Event) (i : Nat) : rejoined n es i ≤ rejoined n (es ++ es') i := by
  induction es' generalizing es with
  | nil => simp
  | cons e es' ih =>
    have := ih (es ++ [e])
    rw [rejoined_snoc] at this
    simp only [List.append_assoc, List.singleton_append] at this
    omega

theorem holds_has {n : Nat} {s : TM} {es : List Event}
    (hv : ∀ q, view n q es = (s.activePeers.get? q).map viewOf) (i : Nat) (q : Peer) :
    holds n es i q = has s.activePeers i q := by
  simp only [holds, has, hv]
  cases s.activePeers.get? q <;> rfl

/-- Every counter is the number of holders and of the holders that were connected to again, modulo 2^16. -/
theorem run_availability {p : Profile} {s0 s : TM} {es : List Event} {n : Nat} (h : Run p s0 es s)
    (hi0 : Inv n s0) (ha : s0.activePeers = []) (hf0 : s0.frequencyMap = List.replicate n 0) :
    Small s.frequencyMap ∧ ∀ i < n, s.frequencyMap.getD i 0 = (s.cnt i + rejoined n es i) % 65536 := by
  induction h with
  | nil =>
    refine ⟨fun i => ?_, fun i hi => ?_⟩
    · rw [hf0]; simp only [List.getD, List.getElem?_replicate]; split <;> simp
    · simp [cnt, ha, Map.count, hf0, List.getD, List.getElem?_replicate, hi, rejoined]
  | @snoc s1 s2 es e hr hs ih =>
    obtain ⟨i4, i5⟩ := ih
    obtain ⟨i1, _, i3⟩ := run_inv hr hi0 ha
    have of_moves : Moves n s1 s2 → rejoining n es = (fun _ _ => 0) ∨ (∀ i, rejoining n es i e = 0) →
        Small s2.frequencyMap ∧ ∀ i < n, s2.frequencyMap.getD i 0 = (s2.cnt i + rejoined n (es ++ [e]) i) % 65536 := by
      intro hm hz
      refine ⟨hm.1, fun i hi => ?_⟩
      have a1 := hm.2 i hi
      have a2 := i5 i hi
      have a3 := hm.1 i
      have a4 : rejoining n es i e = 0 := by
        rcases hz with hz | hz
        · rw [hz]
        · exact hz i
      rw [rejoined_snoc, a4]
      omega
    cases hs with
    | @peers o q hq => exact of_moves (Moves.of_eq i4 rfl fun _ _ => rfl) (.inr fun _ => rfl)
    | @reorder m hp =>
      obtain ⟨r1, r2, r3⟩ := reorder_inv i1 hp
      exact of_moves (Moves.of_eq i4 rfl fun i _ => r3 i) (.inr fun _ => rfl)
    | @start k peer idx hash sent s' acc hk hsel hst =>
      obtain ⟨_, e2⟩ := start_spec i1 hk hsel hst
      exact of_moves (Moves.of_eq i4 e2.freq fun i _ => e2.cnt i) (.inr fun _ => rfl)
    | nothing => exact of_moves (Moves.of_eq i4 rfl fun _ _ => rfl) (.inr fun _ => rfl)
    | @tick _ batch _ ht =>
      have e := tick_effect i1 ht
      refine ⟨by rw [e.freq]; exact i4, fun i hi => ?_⟩
      have a1 := tick_cnt i1 ht i
      have a2 : rejoining n es i (.tick batch) = (batch.filter (has s1.activePeers i)).length := by
        simp only [rejoining]
        congr 1
        exact List.filter_congr fun q _ => holds_has i3 i q
      rw [rejoined_snoc, a2, e.freq, i5 i hi]
      congr 1
      omega
    | @msg peer m _ _ hm => exact of_moves (handle_moves i1 i4 peer m hm) (.inr fun _ => rfl)

/-- In a debug build nothing wraps around. -/
theorem run_availability_debug {s0 s : TM} {es : List Event} {n : Nat} (h : Run .debug s0 es s)
    (hi0 : Inv n s0) (ha : s0.activePeers = []) (hf0 : s0.frequencyMap = List.replicate n 0) :
    ∀ i < n, s.frequencyMap.getD i 0 = s.cnt i + rejoined n es i := by
  induction h with
  | nil => intro i hi; simp [cnt, ha, Map.count, hf0, List.getD, List.getElem?_replicate, hi, rejoined]
  | @snoc s1 s2 es e hr hs ih =>
    obtain ⟨i1, _, i3⟩ := run_inv hr hi0 ha
    intro i hi
    have a := ih i hi
    rw [rejoined_snoc]
    cases hs with
    | @peers o q hq => exact a
    | @reorder m hp =>
      obtain ⟨r1, r2, r3⟩ := reorder_inv i1 hp
      rw [r3]; exact a
    | @start k peer idx hash sent s' acc hk hsel hst =>
      obtain ⟨_, e2⟩ := start_spec i1 hk hsel hst
      rw [e2.cnt]; exact Eq.trans (by rw [e2.freq]) a
    | nothing => exact a
    | @tick _ batch _ ht =>
      have e := tick_effect i1 ht
      have a1 := tick_cnt i1 ht i
      have a2 : rejoining n es i (.tick batch) = (batch.filter (has s1.activePeers i)).length := by
        simp only [rejoining]
        congr 1
        exact List.filter_congr fun q _ => holds_has i3 i q
      rw [a2, e.freq, a]
      omega
    | @msg peer m _ _ hm =>
      have hsound : Sound n .debug s1 := (run_counters hr hi0 ha hf0 (.inl rfl)).1
      obtain ⟨e1, e2, e3, e4⟩ := handle_effect i1 peer m hm
      have := e3 hsound i hi
      show _ = _ + (_ + 0)
      omega

theorem rejoined_zero {n : Nat} {es : List Event} (h : NoRejoin n es) (i : Nat) : rejoined n es i = 0 := by
  simp only [rejoined]
  rw [List.sum_eq_zero_iff_forall_eq_nat]
  intro x hx
  obtain ⟨k, hk, rfl⟩ := List.mem_map.mp hx
  rw [List.mem_range] at hk
  rw [List.getElem?_eq_getElem hk]
  simp only [Option.map_some, Option.getD_some]
  generalize he : es[k] = e
  cases e with
  | tick batch =>
    have hes : es = es.take k ++ .tick batch :: es.drop (k + 1) := by
      rw [← he, List.getElem_cons_drop, List.take_append_drop]
    have := h _ _ _ hes
    simp only [rejoining]
    rw [List.length_eq_zero_iff, List.filter_eq_nil_iff]
    intro q hq
    simp [holds, this q hq]
  | _ => rfl

/-! ## Messages in a release build -/

theorem u16Add_release (a b : Nat) : ∃ r, u16Add .release a b = .ok r := by
  simp only [u16Add]; split <;> exact ⟨_, rfl⟩

theorem u16Sub_release (a b : Nat) : ∃ r, u16Sub .release a b = .ok r := by
  simp only [u16Sub]; split <;> exact ⟨_, rfl⟩

theorem addBits_release {fs : List Nat} {bs : List Bool} (hl : bs.length ≤ fs.length) :
    ∃ fs', addBits .release fs bs = .ok fs' := by
  induction fs generalizing bs with
  | nil =>
    have : bs = [] := List.length_eq_zero_iff.mp (by simpa using hl)
    subst this; exact ⟨_, rfl⟩
  | cons f fs ih =>
    cases bs with
    | nil => exact ⟨_, rfl⟩
    | cons b bs =>
      obtain ⟨r, hr⟩ := ih (bs := bs) (by simpa using hl)
      obtain ⟨f', hf⟩ := u16Add_release f 1
      simp only [addBits]
      cases b
      · simp [hr]
      · simp [hr, hf]

theorem subBits_release (fs : List Nat) (bs : List Bool) : ∃ fs', subBits .release fs bs = .ok fs' := by
  induction fs generalizing bs with
  | nil => cases bs <;> exact ⟨_, rfl⟩
  | cons f fs ih =>
    cases bs with
    | nil => exact ⟨_, rfl⟩
    | cons b bs =>
      obtain ⟨r, hr⟩ := ih bs
      obtain ⟨f', hf⟩ := u16Sub_release f 1
      simp only [subBits]
      cases b
      · simp [hr]
      · simp [hr, hf]

theorem inactive_release {n : Nat} {s : TM} (hi : Inv n s) (peer : Peer) (st : Status) :
    ∃ s', s.markPeerAsInactive .release peer st = .ok s' := by
  cases hg : s.activePeers.get? peer with
  | none => exact ⟨s, by simp [markPeerAsInactive, hg]⟩
  | some info =>
    have hio := get?_infoOk hi hg
    obtain ⟨f, h1⟩ := subBits_release s.frequencyMap ((List.range info.haves.len).map (bitAt info.haves.data))
    simp only [markPeerAsInactive, hg, Bitmap.toBools_eq hio.2.1, Res.ok_bind, h1]
    exact ⟨_, rfl⟩

theorem have_release {n : Nat} {s : TM} (hi : Inv n s) (peer : Peer) {k : Nat} (hk : k < n) :
    ∃ s', s.handleHave .release peer k = .ok s' := by
  cases hg : s.activePeers.get? peer with
  | none => exact ⟨s, by simp [handleHave, hg]⟩
  | some info =>
    have hio := get?_infoOk hi hg
    have hb := bytes_of_wf hio.2.1
    obtain ⟨b', c1, _⟩ := Bitmap.change_set hio.2.1 (i := k) (by rw [hio.1] at hb; omega)
    simp only [handleHave, hg, c1, Res.ok_bind]
    split
    · exact ⟨_, rfl⟩
    · have hkl : k < s.frequencyMap.length := by rw [hi.freq]; exact hk
      obtain ⟨r, hr⟩ := u16Add_release s.frequencyMap[k] 1
      rw [index_lt hkl, Res.ok_bind, hr]
      exact ⟨_, rfl⟩

theorem bitfield_release {n : Nat} {s : TM} (hi : Inv n s) (peer : Peer) (b : Bytes) :
    ∃ s', s.acceptBitfield .release b peer = .ok s' := by
  cases hg : s.activePeers.get? peer with
  | none => exact ⟨s, by simp [acceptBitfield, hg]⟩
  | some info =>
    have hio := get?_infoOk hi hg
    simp only [acceptBitfield, hg]
    by_cases hw : info.haves.weight > 0
    · rw [if_pos hw]; exact ⟨_, rfl⟩
    · rw [if_neg hw]
      by_cases hl : b.length ≠ info.haves.data.length
      · simp only [Bitmap.replaceData, if_pos hl]; exact ⟨_, rfl⟩
      · simp only [Bitmap.replaceData, if_neg hl]
        have hl' : b.length = info.haves.data.length := by simpa using hl
        have hwf : Bitmap.WF { info.haves with data := b } := ⟨hio.2.1.1, by
          show b.length = _
          rw [hl']; exact hio.2.1.2⟩
        rw [Bitmap.toBools_eq hwf, Res.ok_bind]
        obtain ⟨f, hf⟩ := addBits_release (fs := s.frequencyMap)
          (bs := (List.range info.haves.len).map (bitAt b)) (by simp [hi.freq, hio.1])
        simp only [hf, Res.ok_bind]
        exact ⟨_, rfl⟩

end TM

end Nargun
