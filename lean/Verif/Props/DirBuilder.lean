import Verif.Lemmas.DirBuilder
import Verif.Props.Fs
import Verif.Props.Metainfo

/-! # C54, C55, C57: the directories of a torrent -/

namespace Nargun

open Spec DirBuilder

theorem get?_filter {κ α} [DecidableEq κ] (m : Map κ α) (p : κ → Bool) (k : κ) :
    Map.get? (m.filter (fun e => p e.1)) k = if p k then m.get? k else none := by
  induction m with
  | nil => simp
  | cons e m ih =>
    rw [List.filter_cons]
    by_cases he : p e.1 = true
    · rw [if_pos he, Map.get?_cons, Map.get?_cons, ih]
      by_cases hk : e.1 = k
      · subst hk; simp [he]
      · simp only [hk, if_false]
    · rw [if_neg he, ih, Map.get?_cons]
      by_cases hk : e.1 = k
      · subst hk; simp [he]
      · simp only [hk, if_false]

theorem workingDir_slash (base name : Bytes) : ∃ a, workingDir base name = a ++ ascii "/" := ⟨_, rfl⟩

theorem exists_map {α β} (D : List β) (P : α → Prop) (g : α → β) (h : ∀ x ∈ D, ∃ q, P q ∧ x = g q) :
    ∃ Q : List α, D = Q.map g ∧ ∀ q ∈ Q, P q := by
  induction D with
  | nil => exact ⟨[], rfl, by simp⟩
  | cons x D ih =>
    obtain ⟨q, hq, rfl⟩ := h x (by simp)
    obtain ⟨Q, hQ, hP⟩ := ih (fun y hy => h y (by simp [hy]))
    exact ⟨q :: Q, by rw [hQ]; rfl, by
      intro y hy
      rcases List.mem_cons.mp hy with rfl | hy
      · exact hq
      · exact hP y hy⟩

theorem mem_dirs (base name : Bytes) (files : List TorrentFile) (order : List Bytes)
    (ho : SetOrder order (inserted files)) (x : Bytes) :
    x ∈ dirsByAscDepth (workingDir base name) order ↔
      ∃ q, ProperAncestor files q ∧ x = dirPath (workingDir base name) q := by
  unfold dirsByAscDepth
  rw [(List.mergeSort_perm _ _).mem_iff, List.mem_map]
  constructor
  · rintro ⟨y, hy, rfl⟩
    obtain ⟨q, hq, rfl⟩ := (mem_inserted files y).mp ((ho.2 y).mp hy)
    exact ⟨q, hq, by simp [dirPath]⟩
  · rintro ⟨q, hq, rfl⟩
    exact ⟨dirPath [] q, (ho.2 _).mpr ((mem_inserted files _).mpr ⟨q, hq, rfl⟩), by simp [dirPath]⟩

/-- The directories as lists of names: all ancestors, once, not before shallower ones. -/
theorem dirs_spec (base name : Bytes) (files : List TorrentFile) (hn : NormalFiles files) (order : List Bytes)
    (ho : SetOrder order (inserted files)) :
    ∃ Q : List (List Bytes), dirsByAscDepth (workingDir base name) order = Q.map (dirPath (workingDir base name)) ∧
      (∀ q, q ∈ Q ↔ ProperAncestor files q) ∧ Q.Nodup ∧ Q.Pairwise (fun a b => a.length ≤ b.length) := by
  have hmem := mem_dirs base name files order ho
  obtain ⟨Q, hQ, hP⟩ := exists_map (dirsByAscDepth (workingDir base name) order) (ProperAncestor files)
    (dirPath (workingDir base name)) (fun x hx => (hmem x).mp hx)
  have hmemQ : ∀ q, q ∈ Q ↔ ProperAncestor files q := by
    intro q
    refine ⟨hP q, fun hq => ?_⟩
    have := (hmem (dirPath (workingDir base name) q)).mpr ⟨q, hq, rfl⟩
    rw [hQ] at this
    obtain ⟨q', hq', he⟩ := List.mem_map.mp this
    rw [← dirPath_inj (workingDir_slash base name) (ancestor_normal hn (hP q' hq')) (ancestor_normal hn hq) he]
    exact hq'
  refine ⟨Q, hQ, hmemQ, ?_, ?_⟩
  · have hnd : (dirsByAscDepth (workingDir base name) order).Nodup := by
      unfold dirsByAscDepth
      rw [(List.mergeSort_perm _ _).nodup_iff]
      unfold List.Nodup
      rw [List.pairwise_map]
      exact ho.1.imp (fun h he => h (List.append_cancel_left he))
    rw [hQ] at hnd
    unfold List.Nodup at hnd ⊢
    rw [List.pairwise_map] at hnd
    exact hnd.imp (fun h he => h (by rw [he]))
  · have hs := List.pairwise_mergeSort (le := fun a b : Bytes => decide (a.count 47#8 ≤ b.count 47#8))
      (by intro a b c; simp only [decide_eq_true_eq]; omega)
      (by intro a b; simp only [Bool.or_eq_true, decide_eq_true_eq]; omega)
      (order.map (workingDir base name ++ ·))
    change (dirsByAscDepth (workingDir base name) order).Pairwise _ at hs
    rw [hQ, List.pairwise_map] at hs
    refine (List.Pairwise.and_mem.mp hs).imp ?_
    rintro a b ⟨ha, hb, hab⟩
    rw [decide_eq_true_eq, count_dirPath _ _ (ancestor_normal hn (hP a ha)),
      count_dirPath _ _ (ancestor_normal hn (hP b hb))] at hab
    omega

/-! ## C54 -/

/-- C54: the list of directories to create: exactly the proper ancestors of the files, each once. -/
theorem C54_exactly_ancestors (base name : Bytes) (files : List TorrentFile) (hn : NormalFiles files)
    (order : List Bytes) (ho : SetOrder order (inserted files)) :
    (dirsByAscDepth (workingDir base name) order).Nodup ∧
    ∀ x, x ∈ dirsByAscDepth (workingDir base name) order ↔
      ∃ q, ProperAncestor files q ∧ x = dirPath (workingDir base name) q := by
  refine ⟨?_, mem_dirs base name files order ho⟩
  obtain ⟨Q, hQ, hmem, hnd, _⟩ := dirs_spec base name files hn order ho
  rw [hQ]
  unfold List.Nodup
  rw [List.pairwise_map]
  refine (List.Pairwise.and_mem.mp hnd).imp ?_
  rintro a b ⟨ha, hb, hab⟩ he
  exact hab (dirPath_inj (workingDir_slash base name) (ancestor_normal hn ((hmem a).mp ha))
    (ancestor_normal hn ((hmem b).mp hb)) he)

/-- C54: every directory comes after the directory it lies in. -/
theorem C54_parents_first (base name : Bytes) (files : List TorrentFile) (hn : NormalFiles files)
    (order : List Bytes) (ho : SetOrder order (inserted files)) (q : List Bytes) (c : Bytes) (hq : q ≠ [])
    (hc : ProperAncestor files (q ++ [c])) :
    ∃ before after, dirsByAscDepth (workingDir base name) order =
        before ++ dirPath (workingDir base name) (q ++ [c]) :: after ∧
      dirPath (workingDir base name) q ∈ before := by
  obtain ⟨Q, hQ, hmem, hnd, hpw⟩ := dirs_spec base name files hn order ho
  obtain ⟨b, a, hba⟩ := List.append_of_mem ((hmem _).mpr hc)
  refine ⟨b.map (dirPath (workingDir base name)), a.map (dirPath (workingDir base name)), by rw [hQ, hba]; simp, ?_⟩
  refine List.mem_map.mpr ⟨q, ?_, rfl⟩
  have hqQ := (hmem q).mpr (ancestor_parent hc hq)
  rw [hba] at hqQ hpw
  rcases List.mem_append.mp hqQ with h | h
  · exact h
  · rcases List.mem_cons.mp h with h | h
    · have := congrArg List.length h; simp at this
    · have := (List.pairwise_append.mp hpw).2.1
      have := (List.pairwise_cons.mp this).1 q h
      simp at this
      omega

theorem mkdir_ok (allowed : Loc → Bool) (t : Tree) (path : Bytes) (pre : List Bytes) (c : Bytes) (l : Loc)
    (hc : NormalName c) (hnames : names path = pre ++ [c]) (hw : t.walk [] pre = some l)
    (hnone : t.get? (l ++ [c]) = none) (ha : allowed (l ++ [c]) = true) :
    t.mkdir allowed path = (t.insert (l ++ [c]) .dir, .ok ()) := by
  unfold Tree.mkdir
  rw [locate_normal t path pre c hc hnames, hw]
  simp only [Option.map_some]
  rw [if_neg]
  rintro (h | h | h)
  · simp at h
  · rw [contains_iff] at h; exact h hnone
  · rw [ha] at h; cases h

theorem createLoop_ok (base name : Bytes) (hname : NormalName name) (files : List TorrentFile) (hn : NormalFiles files)
    (b : Loc) (t0 : Tree) (hb : LeadsTo t0 base b) (hempty : ∀ q, t0.get? (b ++ name :: q) = none)
    (allowed : Loc → Bool) (ha : ∀ l, allowed l = true)
    (Q : List (List Bytes)) (hmem : ∀ q, q ∈ Q ↔ ProperAncestor files q) (hnd : Q.Nodup)
    (hpw : Q.Pairwise (fun a b => a.length ≤ b.length)) (done todo : List (List Bytes)) (hsplit : Q = done ++ todo)
    (t : Tree) (ht : ∀ l, t.get? l = if l = b ++ [name] ∨ (∃ q ∈ done, l = b ++ name :: q) then some .dir else t0.get? l) :
    ∃ t', createLoop allowed (workingDir base name) (todo.map (dirPath (workingDir base name))) t = (t', .ok ()) ∧
      ∀ l, t'.get? l = if l = b ++ [name] ∨ (∃ q ∈ Q, l = b ++ name :: q) then some .dir else t0.get? l := by
  induction todo generalizing done t with
  | nil => exact ⟨t, rfl, by rw [hsplit, List.append_nil]; exact ht⟩
  | cons q todo ih =>
    have hqQ : q ∈ Q := by rw [hsplit]; simp
    have hqa := (hmem q).mp hqQ
    have hqn := ancestor_normal hn hqa
    obtain ⟨q', c, rfl⟩ : ∃ q' c, q = q' ++ [c] :=
      ⟨q.dropLast, q.getLast hqa.1, (List.dropLast_concat_getLast hqa.1).symm⟩
    have hshort : ∀ p, ProperAncestor files p → p.length < (q' ++ [c]).length → p ∈ done := by
      intro p hp hl
      have := (hmem p).mpr hp
      rw [hsplit] at this hpw
      rcases List.mem_append.mp this with h | h
      · exact h
      · rcases List.mem_cons.mp h with h | h
        · rw [h] at hl; omega
        · have := (List.pairwise_cons.mp (List.pairwise_append.mp hpw).2.1).1 p h
          omega
    have hdirs : ∀ l, t0.get? l = some .dir → t.get? l = some .dir := by
      intro l hl
      rw [ht]
      split
      · rfl
      · exact hl
    have hwalk : t.walk [] (names base ++ name :: q') = some (b ++ name :: q') := by
      rw [walk_append, walk_mono hdirs [] (names base) b hb]
      show t.walk b (name :: q') = _
      refine walk_dirs t b (name :: q') ?_ ?_
      · intro x hx
        rcases List.mem_cons.mp hx with rfl | hx
        · exact hname
        · exact hqn x (by simp [hx])
      · intro p r hp he
        cases p with
        | nil => exact absurd rfl hp
        | cons x p =>
          obtain ⟨rfl, hq'⟩ := List.cons.inj he
          unfold Tree.isDir
          simp only [Bool.or_eq_true, beq_iff_eq]
          right
          rw [ht, if_pos]
          by_cases hpe : p = []
          · left; rw [hpe]
          · right
            refine ⟨p, hshort p ?_ ?_, rfl⟩
            · obtain ⟨_, f, hf, rest, hr, hfp⟩ := hqa
              exact ⟨hpe, f, hf, r ++ [c] ++ rest, by simp, by rw [hfp, hq']; simp⟩
            · rw [hq']; simp
    have hnot : q' ++ [c] ∉ done := by
      rw [hsplit] at hnd
      intro h
      exact (List.pairwise_append.mp hnd).2.2 _ h _ (by simp) rfl
    have hnone : t.get? (b ++ name :: q' ++ [c]) = none := by
      rw [ht, if_neg]
      · have := hempty (q' ++ [c]); simpa using this
      · rintro (h | ⟨p, hp, h⟩)
        · have := congrArg List.length h; simp at this
        · have h' : p = q' ++ [c] := by
            rw [List.append_assoc] at h
            have := List.append_cancel_left h
            simp at this
            exact this.symm
          exact hnot (h' ▸ hp)
    have hnames : names (dirPath (workingDir base name) (q' ++ [c])) = (names base ++ name :: q') ++ [c] := by
      rw [names_dirPath _ (workingDir_slash base name) _ hqn, names_workingDir base name hname]; simp
    have hmk := mkdir_ok allowed t _ _ c (b ++ name :: q') (hqn c (by simp)) hnames hwalk hnone (ha _)
    simp only [List.map_cons, createLoop]
    rw [hmk]
    refine ih (done ++ [q' ++ [c]]) (by rw [hsplit]; simp) _ ?_
    intro l
    rw [Map.get?_insert, ht]
    by_cases hl : l = b ++ name :: q' ++ [c]
    · rw [if_pos hl, if_pos]
      right
      exact ⟨q' ++ [c], by simp, by rw [hl]; simp⟩
    · rw [if_neg hl]
      congr 1
      apply propext
      constructor
      · rintro (h | ⟨p, hp, h⟩)
        · exact .inl h
        · exact .inr ⟨p, by simp [hp], h⟩
      · rintro (h | ⟨p, hp, h⟩)
        · exact .inl h
        · rcases List.mem_append.mp hp with hp | hp
          · exact .inr ⟨p, hp, h⟩
          · rw [List.mem_singleton.mp hp] at h
            exact absurd (by rw [h]; simp) hl

/-- C54: building the tree in an existing base directory, where there is nothing of that name yet, succeeds for every
order of the hash set, and adds exactly the torrent's directory and the proper ancestors of its files below it. -/
theorem C54_tree (base name : Bytes) (hname : NormalName name) (files : List TorrentFile) (hn : NormalFiles files)
    (b : Loc) (t : Tree) (hb : LeadsTo t base b) (hempty : ∀ q, t.get? (b ++ name :: q) = none)
    (allowed : Loc → Bool) (ha : ∀ l, allowed l = true) (order : List Bytes) (ho : SetOrder order (inserted files)) :
    ∃ t', buildDirTree allowed base name order t = (t', .ok ()) ∧
      (∀ l, l = b ++ [name] ∨ (∃ q, ProperAncestor files q ∧ l = b ++ name :: q) → t'.get? l = some .dir) ∧
      (∀ l, ¬ (l = b ++ [name] ∨ (∃ q, ProperAncestor files q ∧ l = b ++ name :: q)) → t'.get? l = t.get? l) ∧
      MultiFile.new allowed base name order t = (t', .ok ()) := by
  obtain ⟨Q, hQ, hmem, hnd, hpw⟩ := dirs_spec base name files hn order ho
  have hmk := mkdir_ok allowed t (workingDir base name) (names base) name b hname
    (names_workingDir base name hname) hb (hempty []) (ha _)
  obtain ⟨t', hl, ht'⟩ := createLoop_ok base name hname files hn b t hb hempty allowed ha Q hmem hnd hpw [] Q rfl
    (t.insert (b ++ [name]) .dir) (by
      intro l
      rw [Map.get?_insert]
      simp)
  have hbuild : buildDirTree allowed base name order t = (t', .ok ()) := by
    unfold buildDirTree createDirs
    rw [hmk, hQ]
    exact hl
  refine ⟨t', hbuild, ?_, ?_, ?_⟩
  · intro l hl
    rw [ht' l, if_pos]
    simpa only [hmem] using hl
  · intro l hl
    rw [ht' l, if_neg]
    simpa only [hmem] using hl
  · unfold MultiFile.new
    rw [hbuild]

/-- C54: when a directory cannot be created, everything created so far is removed again: the tree is as before. -/
theorem C54_failure_cleans (base name : Bytes) (hname : NormalName name) (files : List TorrentFile)
    (hn : NormalFiles files) (b : Loc) (t : Tree) (hb : LeadsTo t base b)
    (hempty : ∀ q, t.get? (b ++ name :: q) = none)
    (allowed : Loc → Bool) (order : List Bytes) (ho : SetOrder order (inserted files)) (t' : Tree) (r : Res Unit)
    (h : buildDirTree allowed base name order t = (t', r)) (hr : r ≠ .ok ()) : ∀ l, t'.get? l = t.get? l := by
  obtain ⟨Q, hQ, hmem, _, _⟩ := dirs_spec base name files hn order ho
  -- what the loop keeps: only locations below the torrent's directory change, and directories stay
  have loop : ∀ (todo : List (List Bytes)) (s : Tree), (∀ q ∈ todo, ∀ c ∈ q, NormalName c) → (∀ q ∈ todo, q ≠ []) →
      (∀ l, ¬ (b ++ [name]) <+: l → s.get? l = t.get? l) →
      (∀ l, t.get? l = some .dir → s.get? l = some .dir) → ∀ s' r,
      createLoop allowed (workingDir base name) (todo.map (dirPath (workingDir base name))) s = (s', r) → r ≠ .ok () →
      ∀ l, s'.get? l = t.get? l := by
    intro todo
    induction todo with
    | nil =>
      intro s _ _ _ _ s' r h hr
      simp only [List.map_nil, createLoop] at h
      exact absurd (Prod.mk.inj h).2.symm hr
    | cons q todo ih =>
      intro s hqn hne h1 h2 s' r h hr
      have hq := hqn q (by simp)
      obtain ⟨q', c, rfl⟩ : ∃ q' c, q = q' ++ [c] :=
        ⟨q.dropLast, q.getLast (hne q (by simp)), (List.dropLast_concat_getLast (hne q (by simp))).symm⟩
      have hnames : names (dirPath (workingDir base name) (q' ++ [c])) = (names base ++ name :: q') ++ [c] := by
        rw [names_dirPath _ (workingDir_slash base name) _ hq, names_workingDir base name hname]; simp
      have hfail : ∀ s' r, (s.removeDirAll (workingDir base name), (.err : Res Unit)) = (s', r) → ∀ l, s'.get? l = t.get? l := by
        intro s' r h l
        obtain ⟨rfl, _⟩ := Prod.mk.inj h
        unfold Tree.removeDirAll
        rw [locate_normal s _ (names base) name hname (names_workingDir base name hname),
          walk_mono h2 [] _ b hb]
        simp only [Option.map_some]
        rw [get?_filter s (fun k => !(b ++ [name]).isPrefixOf k)]
        by_cases hp : (b ++ [name]) <+: l
        · have : (b ++ [name]).isPrefixOf l = true := List.isPrefixOf_iff_prefix.mpr hp
          simp only [this, Bool.not_true, Bool.false_eq_true, if_false]
          obtain ⟨r', rfl⟩ := hp
          have := hempty r'
          rw [List.append_assoc]; exact this.symm
        · have : (b ++ [name]).isPrefixOf l = false := by
            rw [Bool.eq_false_iff]; intro h'; exact hp (List.isPrefixOf_iff_prefix.mp h')
          simp only [this, Bool.not_false, if_true]
          exact h1 l hp
      simp only [List.map_cons, createLoop] at h
      unfold Tree.mkdir at h
      rw [locate_normal s _ _ c (hq c (by simp)) hnames] at h
      cases hw : s.walk [] (names base ++ name :: q') with
      | none =>
        rw [hw] at h
        simp only [Option.map_none] at h
        exact hfail s' r h
      | some l0 =>
        rw [hw] at h
        simp only [Option.map_some] at h
        split at h
        · rename_i heq
          split at heq
          · cases (Prod.mk.inj heq).2
          · obtain ⟨rfl, _⟩ := Prod.mk.inj heq
            have hl0 : l0 = b ++ name :: q' := by
              rw [walk_append, walk_mono h2 [] _ b hb] at hw
              exact walk_normal s b (name :: q') (by
                intro x hx
                rcases List.mem_cons.mp hx with rfl | hx
                · exact hname
                · exact hq x (by simp [hx])) l0 hw
            refine ih _ (fun q hq => hqn q (by simp [hq])) (fun q hq => hne q (by simp [hq])) ?_ ?_ s' r h hr
            · intro l hl
              rw [Map.get?_insert, if_neg]
              · exact h1 l hl
              · rintro rfl
                exact hl ⟨q' ++ [c], by rw [hl0]; simp⟩
            · intro l hl
              rw [Map.get?_insert]
              split
              · rfl
              · exact h2 l hl
        · rename_i heq
          split at heq
          · obtain ⟨rfl, _⟩ := Prod.mk.inj heq
            exact hfail s' r h
          · rename_i hx _
            cases (Prod.mk.inj heq).2
            exact absurd rfl hx
  unfold buildDirTree createDirs at h
  unfold Tree.mkdir at h
  rw [locate_normal t _ (names base) name hname (names_workingDir base name hname), hb] at h
  simp only [Option.map_some] at h
  split at h
  · rename_i heq
    split at heq
    · cases (Prod.mk.inj heq).2
    · obtain ⟨rfl, _⟩ := Prod.mk.inj heq
      rw [hQ] at h
      refine loop Q _ (fun q hq => ancestor_normal hn ((hmem q).mp hq)) (fun q hq => ((hmem q).mp hq).1) ?_ ?_ t' r h hr
      · intro l hl
        rw [Map.get?_insert, if_neg]
        rintro rfl
        exact hl (List.prefix_refl _)
      · intro l hl
        rw [Map.get?_insert]
        split
        · rfl
        · exact hl
  · rename_i heq
    split at heq
    · obtain ⟨rfl, _⟩ := Prod.mk.inj heq
      obtain ⟨rfl, _⟩ := Prod.mk.inj h
      intro l; rfl
    · rename_i hx _
      cases (Prod.mk.inj heq).2
      exact absurd rfl hx

/-- C54 fails for names that are not plain: with a file in the directory `.`, nothing can be created, and the start
panics, whatever the disk (and such a torrent is accepted, `C57_accepted`). -/
theorem C54_dot_violated (base name : Bytes) (hname : NormalName name) (x : Bytes)
    (b : Loc) (t : Tree) (hb : LeadsTo t base b) (allowed : Loc → Bool) (len : Nat) (order : List Bytes)
    (ho : SetOrder order (inserted [⟨[ascii ".", x], len⟩])) :
    (MultiFile.new allowed base name order t).2 = .panic := by
  have hmem := mem_dirs base name _ order ho
  have hdot : dirPath (workingDir base name) [ascii "."] ∈ dirsByAscDepth (workingDir base name) order :=
    (hmem _).mpr ⟨[ascii "."], ⟨by simp, _, List.mem_singleton.mpr rfl, [x], by simp, rfl⟩, rfl⟩
  have hall : ∀ y ∈ dirsByAscDepth (workingDir base name) order, y = dirPath (workingDir base name) [ascii "."] := by
    intro y hy
    obtain ⟨q, ⟨hq, f, hf, rest, hr, he⟩, rfl⟩ := (hmem y).mp hy
    rw [List.mem_singleton.mp hf] at he
    cases q with
    | nil => exact absurd rfl hq
    | cons c q =>
      obtain ⟨rfl, he⟩ := List.cons.inj he
      cases q with
      | nil => rfl
      | cons c' q =>
        have he2 : [] = q ++ rest := (List.cons.inj (List.cons.inj he).2).2
        exact absurd (List.append_eq_nil_iff.mp he2.symm).2 hr
  have hnames : names (dirPath (workingDir base name) [ascii "."]) = names base ++ [name] ++ [ascii "."] := by
    have h1 : dirPath (workingDir base name) [ascii "."] =
        (base ++ ascii "/" ++ name) ++ ascii "/" ++ (ascii "." ++ ascii "/") := by
      simp [dirPath, workingDir]
    rw [h1, names_sep, names_sep, names_normal hname, names_end_slash]
    congr 1
  -- creating `dir/.` fails in every tree
  have hfail : ∀ s : Tree, (∀ l, t.get? l = some .dir → s.get? l = some .dir) → s.get? (b ++ [name]) = some .dir →
      s.mkdir allowed (dirPath (workingDir base name) [ascii "."]) = (s, .err) := by
    intro s h1 h2
    unfold Tree.mkdir Tree.locate
    rw [hnames, List.getLast?_append, List.getLast?_singleton]
    simp only [Option.some_or, true_or, if_true]
    rw [walk_append, walk_append, walk_mono h1 [] _ b hb]
    simp only [Option.bind_some]
    have hd : s.walk b [name] = some (b ++ [name]) := walk_dirs s b [name] (by simpa using hname) (by
      intro p r hp he
      have : p = [name] := by
        cases p with
        | nil => exact absurd rfl hp
        | cons c p =>
          have he2 : [] = p ++ r := (List.cons.inj he).2
          rw [← (List.cons.inj he).1, (List.append_eq_nil_iff.mp he2.symm).1]
      rw [this]
      unfold Tree.isDir
      simp [h2])
    rw [hd]
    simp only [Option.bind_some, Tree.walk, if_true]
    rw [if_pos]
    right; left
    rw [contains_iff, h2]
    simp
  unfold MultiFile.new buildDirTree createDirs
  have hmk : t.mkdir allowed (workingDir base name) = (t.insert (b ++ [name]) .dir, .ok ()) ∨
      t.mkdir allowed (workingDir base name) = (t, .err) := by
    unfold Tree.mkdir
    rw [locate_normal t _ (names base) name hname (names_workingDir base name hname), hb]
    simp only [Option.map_some]
    split
    · right; rfl
    · left; rfl
  rcases hmk with h | h
  · rw [h]
    simp only
    cases hd : dirsByAscDepth (workingDir base name) order with
    | nil => rw [hd] at hdot; cases hdot
    | cons y ys =>
      have hy : y = dirPath (workingDir base name) [ascii "."] := hall y (by rw [hd]; simp)
      simp only [createLoop]
      rw [hy, hfail _ (by
        intro l hl
        rw [Map.get?_insert]
        split
        · rfl
        · exact hl) (by rw [Map.get?_insert, if_pos rfl])]
  · rw [h]

/-- C54 fails for names with slashes (which are accepted): with the files `../out/x` and `p/q/./y`, the directory `out` is made
outside the torrent's directory; it is no ancestor of a file below that directory, and it is still there after the start has
failed because `.` cannot be made. -/
theorem C54_outside_violated :
    ∃ (files : List TorrentFile) (t t' : Tree) (order : List Bytes), SetOrder order (inserted files) ∧
      LeadsTo t (ascii "/d") [ascii "d"] ∧ (∀ q, t.get? (ascii "d" :: ascii "t" :: q) = none) ∧
      MultiFile.new (fun _ => true) (ascii "/d") (ascii "t") order t = (t', .panic) ∧
      t.get? [ascii "d", ascii "out"] = none ∧ t'.get? [ascii "d", ascii "out"] = some .dir ∧
      t'.get? [ascii "d", ascii "t"] = none := by
  refine ⟨[⟨[ascii "../out", ascii "x"], 1⟩, ⟨[ascii "p", ascii "q", ascii ".", ascii "y"], 1⟩], [([ascii "d"], .dir)],
    [([ascii "d"], .dir), ([ascii "d", ascii "out"], .dir)],
    [ascii "p/", ascii "../out/", ascii "p/q/", ascii "p/q/./"], ⟨by decide, ?_⟩, by unfold LeadsTo; decide, ?_,
    ?_, by decide, by decide, by decide⟩
  · have : inserted [⟨[ascii "../out", ascii "x"], 1⟩, ⟨[ascii "p", ascii "q", ascii ".", ascii "y"], 1⟩] =
        [ascii "../out/", ascii "p/", ascii "p/q/", ascii "p/q/./"] := by decide
    rw [this]
    intro x
    simp only [List.mem_cons, List.not_mem_nil, or_false]
    constructor <;> (rintro (h | h | h | h) <;> simp [h])
  · intro q
    simp [Map.get?]
  · unfold MultiFile.new buildDirTree dirsByAscDepth
    rw [List.mergeSort_of_pairwise (by decide)]
    decide +kernel

/-- The hypotheses of C54 are met: a base directory `/d`, and files `p/q/x`, `p/y` and `z`. -/
def demoTreeFiles : List TorrentFile :=
  [⟨[ascii "p", ascii "q", ascii "x"], 1⟩, ⟨[ascii "p", ascii "y"], 1⟩, ⟨[ascii "z"], 1⟩]

def demoTree : Tree := [([ascii "d"], .dir)]

example : NormalName (ascii "t") ∧ NormalFiles demoTreeFiles ∧ LeadsTo demoTree (ascii "/d") [ascii "d"] ∧
    (∀ q, demoTree.get? ([ascii "d"] ++ ascii "t" :: q) = none) ∧
    SetOrder [ascii "p/q/", ascii "p/"] (inserted demoTreeFiles) := by
  refine ⟨by unfold NormalName; decide, by unfold NormalFiles NormalName; decide, by unfold LeadsTo; decide, ?_, ?_⟩
  · intro q
    simp [demoTree, Map.get?]
  · refine ⟨by decide, ?_⟩
    have : inserted demoTreeFiles = [ascii "p/", ascii "p/q/", ascii "p/"] := by decide
    rw [this]
    intro x
    simp only [List.mem_cons, List.not_mem_nil, or_false]
    constructor
    · rintro (h | h) <;> simp [h]
    · rintro (h | h | h) <;> simp [h]

/-- The hypotheses of `C54_failure_cleans`: the second directory cannot be created. -/
example : SetOrder [ascii "p/", ascii "p/q/"] (inserted demoTreeFiles) ∧
    ∃ t', buildDirTree (fun l => decide (l ≠ [ascii "d", ascii "t", ascii "p", ascii "q"])) (ascii "/d")
      (ascii "t") [ascii "p/", ascii "p/q/"] demoTree = (t', .err) := by
  constructor
  · refine ⟨by decide, ?_⟩
    have : inserted demoTreeFiles = [ascii "p/", ascii "p/q/", ascii "p/"] := by decide
    rw [this]
    intro x
    simp only [List.mem_cons, List.not_mem_nil, or_false]
    constructor
    · rintro (h | h) <;> simp [h]
    · rintro (h | h | h) <;> simp [h]
  · refine ⟨[([ascii "d"], .dir)], ?_⟩
    unfold buildDirTree dirsByAscDepth
    rw [List.mergeSort_of_pairwise (by decide)]
    decide +kernel

/-- The hypotheses of `C54_parents_first`: `p/q` is a directory of the torrent. -/
example : ProperAncestor demoTreeFiles ([ascii "p"] ++ [ascii "q"]) := by
  exact ⟨by simp, ⟨[ascii "p", ascii "q", ascii "x"], 1⟩, by simp [demoTreeFiles], [ascii "x"], by simp, rfl⟩

/-- The hypotheses of `C54_dot_violated`. -/
example : SetOrder [ascii "./"] (inserted [⟨[ascii ".", ascii "x"], 1⟩]) := by
  have : inserted [⟨[ascii ".", ascii "x"], 1⟩] = [ascii "./"] := by decide
  rw [this]
  exact ⟨by decide, fun x => Iff.rfl⟩

/-! ## C55 -/

theorem createLoop_keeps (allowed : Loc → Bool) (wd : Bytes) (dirs : List Bytes) (t t' : Tree)
    (h : createLoop allowed wd dirs t = (t', .ok ())) (l : Loc) (hl : t.contains l = true) : t'.contains l = true := by
  induction dirs generalizing t with
  | nil =>
    simp only [createLoop] at h
    obtain ⟨rfl, _⟩ := Prod.mk.inj h
    exact hl
  | cons d dirs ih =>
    simp only [createLoop] at h
    split at h
    · rename_i t1 heq
      refine ih t1 h ?_
      unfold Tree.mkdir at heq
      split at heq
      · cases (Prod.mk.inj heq).2
      · split at heq
        · cases (Prod.mk.inj heq).2
        · obtain ⟨rfl, _⟩ := Prod.mk.inj heq
          rw [contains_iff] at hl ⊢
          rw [Map.get?_insert]
          split
          · simp
          · exact hl
    · cases (Prod.mk.inj h).2

/-- C55 fails for torrents with several files: if there is anything where the torrent's directory should be, the start
panics. What is there stays as it is. -/
theorem C55_restart_violated (base name : Bytes) (hname : NormalName name) (b : Loc) (t : Tree)
    (hb : LeadsTo t base b) (hexists : t.contains (b ++ [name]) = true) (allowed : Loc → Bool) (order : List Bytes) :
    MultiFile.new allowed base name order t = (t, .panic) := by
  unfold MultiFile.new buildDirTree createDirs
  have hmk : t.mkdir allowed (workingDir base name) = (t, .err) := by
    unfold Tree.mkdir
    rw [locate_normal t _ (names base) name hname (names_workingDir base name hname), hb]
    simp only [Option.map_some]
    rw [if_pos (.inr (.inl hexists))]
  rw [hmk]

/-- C55 fails at every crash point of a previous run from the first directory on: when `k` of the directories below
the torrent's had been created, and whatever was written since, the next start panics. -/
theorem C55_crash_violated (base name : Bytes) (hname : NormalName name) (b : Loc) (t t1 t2 : Tree)
    (hb : LeadsTo t base b) (allowed : Loc → Bool) (dirs : List Bytes) (k : Nat)
    (hcrash : createDirs allowed (workingDir base name) (dirs.take k) t = (t1, .ok ()))
    (hb2 : LeadsTo t2 base b) (hkept : ∀ l, t1.contains l = true → t2.contains l = true)
    (allowed' : Loc → Bool) (order : List Bytes) :
    MultiFile.new allowed' base name order t2 = (t2, .panic) := by
  refine C55_restart_violated base name hname b t2 hb2 (hkept _ ?_) allowed' order
  unfold createDirs at hcrash
  split at hcrash
  · rename_i t' heq
    refine createLoop_keeps _ _ _ _ _ hcrash _ ?_
    unfold Tree.mkdir at heq
    rw [locate_normal t _ (names base) name hname (names_workingDir base name hname), hb] at heq
    simp only [Option.map_some] at heq
    split at heq
    · cases (Prod.mk.inj heq).2
    · obtain ⟨rfl, _⟩ := Prod.mk.inj heq
      rw [contains_iff, Map.get?_insert, if_pos rfl]
      simp
  · cases (Prod.mk.inj hcrash).2

/-- C55 for one file: starting on an existing download keeps it. Whatever was on disk and whatever happens afterwards,
a byte of a piece that is not written again is still there, and all other files are untouched. -/
theorem C55_single_keeps_partial (openable : Bytes → Bool) (base : Bytes) (info : Info) (len : Nat)
    (hm : info.mode = .single len) (hf : EnoughPieces info.pieces.length info.pieceLength len)
    (d0 d : Disk) (ops : List FsOp) (h : SingleHistory openable base info len d0 ops d) :
    (∀ x b, (fileOf d0 (SingleFile.path base info))[x]? = some b → lastWritten ops (x / info.pieceLength) = none →
      (fileOf d (SingleFile.path base info))[x]? = some b) ∧
    ∀ q, q ≠ SingleFile.path base info → fileOf d q = fileOf d0 q := by
  refine history_inv (P := fun ops d => (∀ x b, (fileOf d0 (SingleFile.path base info))[x]? = some b →
      lastWritten ops (x / info.pieceLength) = none → (fileOf d (SingleFile.path base info))[x]? = some b) ∧
    ∀ q, q ≠ SingleFile.path base info → fileOf d q = fileOf d0 q) h ?_ ?_ ?_
  · exact ⟨fun _ _ hb _ => hb, fun _ _ => rfl⟩
  · intro ops d idx data d' hP hv hw
    have hi := C50_isolated openable base info len hm hf idx data hv d
    rw [hw] at hi
    refine ⟨fun x b hb hl => ?_, fun q hq => (fileOf_congr (hi.1 q hq)).trans (hP.2 q hq)⟩
    rw [lastWritten_write] at hl
    split at hl
    · cases hl
    · rename_i hne
      exact hi.2 x b (fun e => hne e.symm) (hP.1 x b hb hl)
  · intro ops d i b l buf d' r hP hr
    have hpure : ∀ q, fileOf d' q = fileOf d q := by
      intro q
      have := C50_read_pure openable base info i b l buf d q
      rw [hr] at this
      exact this
    refine ⟨fun x b hb hl => ?_, fun q hq => (hpure q).trans (hP.2 q hq)⟩
    rw [lastWritten_read] at hl
    rw [hpure]
    exact hP.1 x b hb hl

/-- The hypotheses of `C55_crash_violated` and of `C55_restart_violated`: the torrent's directory and one directory below it
had been created when the program was killed. -/
example : ∃ t1, createDirs (fun _ => true) (workingDir (ascii "/d") (ascii "t")) ([ascii "/d/t/p/", ascii "/d/t/p/q/"].take 1)
      demoTree = (t1, .ok ()) ∧ LeadsTo t1 (ascii "/d") [ascii "d"] ∧ t1.contains ([ascii "d"] ++ [ascii "t"]) = true ∧
      t1.contains [ascii "d", ascii "t", ascii "p"] = true := by
  have : (match createDirs (fun _ => true) (workingDir (ascii "/d") (ascii "t"))
      ([ascii "/d/t/p/", ascii "/d/t/p/q/"].take 1) demoTree with
    | (t1, .ok ()) => decide (t1.walk [] (names (ascii "/d")) = some [ascii "d"] ∧
        t1.contains ([ascii "d"] ++ [ascii "t"]) = true ∧ t1.contains [ascii "d", ascii "t", ascii "p"] = true)
    | _ => false) = true := by decide +kernel
  split at this
  · rename_i t1 h
    exact ⟨t1, h, @of_decide_eq_true (t1.walk [] (names (ascii "/d")) = some [ascii "d"] ∧ _) _ this⟩
  · cases this

/-! ## C57 -/

/-- C57 for plain names: a file of the torrent is opened at its place below the torrent's directory, whatever the
tree looks like. Missing from the property: names that are not plain (`C57_dotdot_violated`). -/
theorem C57_confined_partial (base name : Bytes) (hname : NormalName name) (f : TorrentFile) (hne : f.path ≠ [])
    (hf : ∀ c ∈ f.path, NormalName c) (b : Loc) (t : Tree) (hb : LeadsTo t base b) (l : Loc)
    (h : t.locate (MultiFile.path base name f) = some l) : l = b ++ name :: f.path := by
  obtain ⟨p, c, hp⟩ : ∃ p c, f.path = p ++ [c] :=
    ⟨f.path.dropLast, f.path.getLast hne, (List.dropLast_concat_getLast hne).symm⟩
  have hnames : names (MultiFile.path base name f) = (names base ++ name :: p) ++ [c] := by
    unfold MultiFile.path
    rw [names_sep, names_sep, names_normal hname, names_joinPath f.path hf, hp]
    simp
  rw [locate_normal t _ _ c (hf c (by rw [hp]; simp)) hnames, walk_append, hb] at h
  simp only [Option.bind_some, Option.map_eq_some_iff] at h
  obtain ⟨l0, hw, rfl⟩ := h
  rw [walk_normal t b (name :: p) (by
    intro x hx
    rcases List.mem_cons.mp hx with rfl | hx
    · exact hname
    · exact hf x (by rw [hp]; simp [hx])) l0 hw, hp]
  simp

/-- C57 for plain names: every directory created is the torrent's directory or below it. -/
theorem C57_directories_partial (base name : Bytes) (hname : NormalName name) (files : List TorrentFile)
    (hn : NormalFiles files) (order : List Bytes) (ho : SetOrder order (inserted files)) (b : Loc) (t : Tree)
    (hb : LeadsTo t base b) (l : Loc) :
    (t.locate (workingDir base name) = some l → l = b ++ [name]) ∧
    ∀ x ∈ dirsByAscDepth (workingDir base name) order, t.locate x = some l →
      ∃ q, ProperAncestor files q ∧ l = b ++ name :: q := by
  constructor
  · intro h
    rw [locate_normal t _ (names base) name hname (names_workingDir base name hname), hb] at h
    cases h; rfl
  · intro x hx h
    obtain ⟨q, hq, rfl⟩ := (mem_dirs base name files order ho x).mp hx
    have hqn := ancestor_normal hn hq
    refine ⟨q, hq, ?_⟩
    obtain ⟨q', c, rfl⟩ : ∃ q' c, q = q' ++ [c] :=
      ⟨q.dropLast, q.getLast hq.1, (List.dropLast_concat_getLast hq.1).symm⟩
    have hnames : names (dirPath (workingDir base name) (q' ++ [c])) = (names base ++ name :: q') ++ [c] := by
      rw [names_dirPath _ (workingDir_slash base name) _ hqn, names_workingDir base name hname]; simp
    rw [locate_normal t _ _ c (hqn c (by simp)) hnames, walk_append, hb] at h
    simp only [Option.bind_some, Option.map_eq_some_iff] at h
    obtain ⟨l0, hw, rfl⟩ := h
    rw [walk_normal t b (name :: q') (by
      intro x hx
      rcases List.mem_cons.mp hx with rfl | hx
      · exact hname
      · exact hqn x (by simp [hx])) l0 hw]
    simp

/-- C57 for a plain name: the file of a torrent with one file is directly in the base directory. -/
theorem C57_single_partial (base : Bytes) (info : Info) (hname : NormalName info.name) (b : Loc) (t : Tree)
    (hb : LeadsTo t base b) (l : Loc) (h : t.locate (SingleFile.path base info) = some l) : l = b ++ [info.name] := by
  rw [locate_normal t _ (names base) info.name hname (by
    unfold SingleFile.path; rw [names_sep, names_normal hname]), hb] at h
  cases h; rfl

theorem names_dotdot : names (ascii "..") = [ascii ".."] := by decide

theorem joinPath_dotdot (k : Nat) (x : Bytes) (hx : NormalName x) :
    names (MultiFile.joinPath (List.replicate k (ascii "..") ++ [x])) = List.replicate k (ascii "..") ++ [x] := by
  induction k with
  | zero => exact names_normal hx
  | succ k ih =>
    rw [List.replicate_succ, List.cons_append]
    have : ∀ ys : List Bytes, ys ≠ [] → MultiFile.joinPath (ascii ".." :: ys) =
        ascii ".." ++ ascii "/" ++ MultiFile.joinPath ys := by
      intro ys hys
      cases ys with
      | nil => exact absurd rfl hys
      | cons _ _ => rfl
    rw [this _ (by simp), names_sep, ih, names_dotdot]
    rfl

theorem walk_dotdot (t : Tree) (cur : Loc) (k : Nat) :
    t.walk cur (List.replicate k (ascii "..")) = some (cur.take (cur.length - k)) := by
  induction k generalizing cur with
  | zero => simp [Tree.walk]
  | succ k ih =>
    rw [List.replicate_succ]
    simp only [Tree.walk]
    have h1 : ¬ ascii ".." = ascii "." := by decide
    rw [if_neg h1, if_pos True.intro, ih, List.dropLast_eq_take, List.take_take, List.length_take]
    congr 2
    omega

/-- C57 fails: a file whose path begins with `..` is opened outside the torrent's directory, as many levels up as the
torrent says. -/
theorem C57_dotdot_violated (base name : Bytes) (hname : NormalName name) (b : Loc) (t : Tree) (hb : LeadsTo t base b)
    (hdir : t.isDir (b ++ [name]) = true) (k : Nat) (hk : 0 < k) (x : Bytes) (hx : NormalName x) (hxn : x ≠ name)
    (len : Nat) : ∃ l, t.locate (MultiFile.path base name ⟨List.replicate k (ascii "..") ++ [x], len⟩) = some l ∧
      l = b.take (b.length + 1 - k) ++ [x] ∧ ¬ (b ++ [name]) <+: l := by
  refine ⟨b.take (b.length + 1 - k) ++ [x], ?_, rfl, ?_⟩
  · have hnames : names (MultiFile.path base name ⟨List.replicate k (ascii "..") ++ [x], len⟩) =
        (names base ++ [name] ++ List.replicate k (ascii "..")) ++ [x] := by
      unfold MultiFile.path
      rw [names_sep, names_sep, names_normal hname, joinPath_dotdot k x hx]
      simp
    rw [locate_normal t _ _ x hx hnames, walk_append, walk_append, hb]
    have hd : t.walk b [name] = some (b ++ [name]) := by
      simp only [Tree.walk, if_neg hname.2.2.1, if_neg hname.2.2.2, hdir, if_true]
    simp only [Option.bind_some, hd, walk_dotdot, Option.map_some]
    congr 2
    rw [List.length_append, List.length_singleton, List.take_append_of_le_length (by omega)]
  · rintro ⟨r, hr⟩
    have hlen := congrArg List.length hr
    simp only [List.length_append, List.length_take, List.length_singleton] at hlen
    have : r = [] := List.length_eq_zero_iff.mp (by omega)
    rw [this, List.append_nil] at hr
    have := List.append_inj_right' hr rfl
    simp only [List.cons.injEq, and_true] at this
    exact hxn this.symm

/-- A torrent with the file `../../x` and the file `./y`. -/
def escapingMetainfo : Bytes := ascii ("d8:announce8:http://b4:infod5:filesld6:lengthi1e4:pathl2:..2:..1:xee" ++
  "d6:lengthi1e4:pathl1:.1:yeee4:name1:t12:piece lengthi4e6:pieces20:aaaaaaaaaaaaaaaaaaaaee")

/-- Such torrents are accepted. -/
theorem C57_accepted : ∃ t, Torrent.fromBuf demoSha1 (fun _ => true) escapingMetainfo = .ok t ∧
    t.info.mode = .multi [⟨[ascii "..", ascii "..", ascii "x"], 1⟩, ⟨[ascii ".", ascii "y"], 1⟩] ∧
    t.info.name = ascii "t" := by
  have h : (match Torrent.fromBuf demoSha1 (fun _ => true) escapingMetainfo with
    | .ok t => decide (t.info.mode = .multi [⟨[ascii "..", ascii "..", ascii "x"], 1⟩, ⟨[ascii ".", ascii "y"], 1⟩] ∧
        t.info.name = ascii "t")
    | _ => false) = true := by decide +kernel
  cases e : Torrent.fromBuf demoSha1 (fun _ => true) escapingMetainfo with
  | ok t => rw [e] at h; exact ⟨t, rfl, of_decide_eq_true h⟩
  | err => rw [e] at h; cases h
  | panic => rw [e] at h; cases h

/-- In the tree with the directories `/d` and `/d/t`, the file `../../x` of the torrent `t` in `/d` is `/x`. -/
example : Tree.locate [([ascii "d"], .dir), ([ascii "d", ascii "t"], .dir)]
    (MultiFile.path (ascii "/d") (ascii "t") ⟨[ascii "..", ascii "..", ascii "x"], 1⟩) = some [ascii "x"] := by decide

end Nargun
