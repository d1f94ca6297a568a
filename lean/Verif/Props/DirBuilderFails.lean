import Verif.Model.DirBuilderFails
import Verif.Props.DirBuilder

/-! # C156: the directories of a torrent on a system where every call may fail -/

namespace Nargun

open Spec DirBuilder

/-! ## The model covers that of C54 -/

theorem mkdir_anywhere {allowed : Loc → Bool} {t t' : Tree} {path : Bytes} (h : t.mkdir allowed path = (t', .ok ())) :
    t.mkdir (fun _ => true) path = (t', .ok ()) := by
  unfold Tree.mkdir at h ⊢
  cases hl : t.locate path with
  | none => rw [hl] at h; cases (Prod.mk.inj h).2
  | some l =>
    rw [hl] at h
    simp only at h ⊢
    by_cases hc : l.isEmpty ∨ t.contains l ∨ allowed l = false
    · rw [if_pos hc] at h; cases (Prod.mk.inj h).2
    · rw [if_neg hc] at h
      rw [if_neg]
      · exact h
      · rintro (g | g | g)
        · exact hc (.inl g)
        · exact hc (.inr (.inl g))
        · cases g

theorem mkdir_failed {allowed : Loc → Bool} {t t' : Tree} {path : Bytes} {r : Res Unit}
    (h : t.mkdir allowed path = (t', r)) (hr : r ≠ .ok ()) : t' = t := by
  unfold Tree.mkdir at h
  split at h
  · exact (Prod.mk.inj h).1.symm
  · split at h
    · exact (Prod.mk.inj h).1.symm
    · exact absurd (Prod.mk.inj h).2.symm hr

theorem loop_covers (allowed : Loc → Bool) (wd : Bytes) (dirs : List Bytes) (t t' : Tree) (r : Res Unit)
    (h : createLoop allowed wd dirs t = (t', r)) : Loop wd dirs t t' r := by
  induction dirs generalizing t with
  | nil =>
    simp only [createLoop] at h
    obtain ⟨rfl, rfl⟩ := Prod.mk.inj h
    exact .done
  | cons d dirs ih =>
    simp only [createLoop] at h
    split at h
    · rename_i t1 heq
      exact .made (mkdir_anywhere heq) (ih t1 h)
    · rename_i t1 r1 hx heq
      obtain ⟨rfl, rfl⟩ := Prod.mk.inj h
      rw [mkdir_failed heq (fun hr => hx (by rw [hr] at heq ⊢))]
      exact .cleaned

/-- Every outcome of C54, where locations are allowed or not and removing never fails, is an outcome here. -/
theorem C156_covers (allowed : Loc → Bool) (base name : Bytes) (order : List Bytes) (t t' : Tree) (r : Res Unit)
    (h : buildDirTree allowed base name order t = (t', r)) : Builds base name order t t' r := by
  unfold buildDirTree createDirs at h
  split at h
  · rename_i t1 heq
    exact .made (mkdir_anywhere heq) (loop_covers _ _ _ _ _ _ h)
  · rename_i t1 r1 hx heq
    obtain ⟨rfl, rfl⟩ := Prod.mk.inj h
    rw [mkdir_failed heq (fun hr => hx (by rw [hr] at heq ⊢))]
    exact .refused

theorem loop_success {wd : Bytes} {dirs : List Bytes} {t t' : Tree} {r : Res Unit} (h : Loop wd dirs t t' r)
    (hr : r = .ok ()) : createLoop (fun _ => true) wd dirs t = (t', .ok ()) := by
  induction h with
  | done => rfl
  | made hm _ ih => simp only [createLoop, hm]; exact ih hr
  | cleaned => cases hr
  | stuck => cases hr

/-- C156: if it succeeds, exactly the torrent's directory and the proper ancestors of its files have been added. -/
theorem C156_success (base name : Bytes) (hname : NormalName name) (files : List TorrentFile) (hn : NormalFiles files)
    (b : Loc) (t t' : Tree) (hb : LeadsTo t base b) (hempty : ∀ q, t.get? (b ++ name :: q) = none) (order : List Bytes)
    (ho : SetOrder order (inserted files)) (h : Builds base name order t t' (.ok ())) :
    (∀ l, l = b ++ [name] ∨ (∃ q, ProperAncestor files q ∧ l = b ++ name :: q) → t'.get? l = some .dir) ∧
    (∀ l, ¬ (l = b ++ [name] ∨ (∃ q, ProperAncestor files q ∧ l = b ++ name :: q)) → t'.get? l = t.get? l) := by
  obtain ⟨t2, h1, h2, h3, _⟩ := C54_tree base name hname files hn b t hb hempty (fun _ => true) (fun _ => rfl) order ho
  have he : buildDirTree (fun _ => true) base name order t = (t', .ok ()) := by
    cases h with
    | made hm hl =>
      unfold buildDirTree createDirs
      rw [hm]
      exact loop_success hl rfl
  rw [he] at h1
  obtain ⟨rfl, _⟩ := Prod.mk.inj h1
  exact ⟨h2, h3⟩

/-! ## What a failure leaves -/

/-- What may have happened to the tree `t` while the directories of a torrent were made at `root`. -/
structure Unfinished (files : List TorrentFile) (root : Loc) (t s : Tree) : Prop where
  outside : ∀ l, ¬ root <+: l → s.get? l = t.get? l
  below : ∀ q, s.get? (root ++ q) = none ∨ s.get? (root ++ q) = some .dir ∧ (q = [] ∨ ProperAncestor files q)
  parents : ∀ q c, s.get? (root ++ (q ++ [c])) ≠ none → s.get? (root ++ q) = some .dir

theorem Unfinished.removing {files : List TorrentFile} {root : Loc} {t s s' : Tree} (hu : Unfinished files root t s)
    (h : Removing root s s') : Unfinished files root t s' := by
  induction h with
  | stop => exact hu
  | @one s s' k hk hno _ ih =>
    refine ih ⟨fun l hl => ?_, fun q => ?_, fun q c hc => ?_⟩
    · rw [Map.get?_erase, if_neg (by rintro rfl; exact hl hk)]
      exact hu.outside l hl
    · rw [Map.get?_erase]
      split
      · exact .inl rfl
      · exact hu.below q
    · rw [Map.get?_erase] at hc ⊢
      split at hc
      · exact absurd rfl hc
      · rw [if_neg]
        · exact hu.parents q c hc
        · rintro rfl
          refine hc ?_
          rw [← List.append_assoc]
          exact hno c []

theorem Unfinished.cleaned {files : List TorrentFile} {root : Loc} {t s : Tree} (hu : Unfinished files root t s) {wd : Bytes}
    (hl : s.locate wd = some root) : Unfinished files root t (s.removeDirAll wd) := by
  have hg : ∀ l, (s.removeDirAll wd).get? l = if root <+: l then none else s.get? l := by
    intro l
    unfold Tree.removeDirAll
    rw [hl]
    simp only
    rw [get?_filter s (fun k => !root.isPrefixOf k)]
    by_cases hp : root <+: l
    · have : root.isPrefixOf l = true := List.isPrefixOf_iff_prefix.mpr hp
      simp [hp, this]
    · have : root.isPrefixOf l = false := by
        rw [Bool.eq_false_iff]; exact fun h => hp (List.isPrefixOf_iff_prefix.mp h)
      simp [hp, this]
  refine ⟨fun l h => ?_, fun q => ?_, fun q c hc => ?_⟩
  · rw [hg, if_neg h]; exact hu.outside l h
  · rw [hg, if_pos (List.prefix_append _ _)]; exact .inl rfl
  · rw [hg, if_pos (List.prefix_append _ _)] at hc; exact absurd rfl hc

theorem walk_isDir {t : Tree} {cur l : Loc} {q : List Bytes} (h : t.walk cur q = some l) (hq : ∀ c ∈ q, NormalName c)
    (hne : q ≠ []) : t.get? l = some .dir := by
  induction q generalizing cur with
  | nil => exact absurd rfl hne
  | cons c q ih =>
    have hc := hq c (by simp)
    simp only [Tree.walk, if_neg hc.2.2.1, if_neg hc.2.2.2] at h
    split at h
    · rename_i hd
      by_cases hq' : q = []
      · subst hq'
        simp only [Tree.walk, Option.some.injEq] at h
        subst h
        simpa [Tree.isDir] using hd
      · exact ih h (fun x hx => hq x (List.mem_cons_of_mem _ hx)) hq'
    · cases h

/-- The loop, on the directories of the torrent. -/
theorem loop_unfinished (base name : Bytes) (hname : NormalName name) (files : List TorrentFile) (hn : NormalFiles files)
    (b : Loc) (t : Tree) (hb : LeadsTo t base b) {D : List Bytes} {s s' : Tree} {r : Res Unit}
    (h : Loop (workingDir base name) D s s' r) :
    ∀ Q : List (List Bytes), D = Q.map (dirPath (workingDir base name)) → (∀ q ∈ Q, ProperAncestor files q) →
      (∀ l, t.get? l = some .dir → s.get? l = some .dir) → Unfinished files (b ++ [name]) t s →
      Unfinished files (b ++ [name]) t s' := by
  have hloc : ∀ s : Tree, (∀ l, t.get? l = some .dir → s.get? l = some .dir) →
      s.locate (workingDir base name) = some (b ++ [name]) := by
    intro s hk
    rw [locate_normal s _ (names base) name hname (names_workingDir base name hname), walk_mono hk [] _ b hb]
    rfl
  induction h with
  | done => exact fun _ _ _ _ hu => hu
  | cleaned => exact fun _ _ _ hk hu => hu.cleaned (hloc _ hk)
  | stuck hl hrm =>
    intro _ _ _ hk hu
    rw [hloc _ hk] at hl
    cases hl
    exact hu.removing hrm
  | @made d ds s s1 s' r hm _ ih =>
    intro Q hQ hP hk hu
    cases Q with
    | nil => cases hQ
    | cons q Q =>
      simp only [List.map_cons, List.cons.injEq] at hQ
      obtain ⟨rfl, rfl⟩ := hQ
      have hp := hP q (by simp)
      have hq := ancestor_normal hn hp
      obtain ⟨q', c, rfl⟩ : ∃ q' c, q = q' ++ [c] := ⟨_, _, (List.dropLast_concat_getLast hp.1).symm⟩
      have hnames : names (dirPath (workingDir base name) (q' ++ [c])) = (names base ++ name :: q') ++ [c] := by
        rw [names_dirPath _ (workingDir_slash base name) _ hq, names_workingDir base name hname]; simp
      unfold Tree.mkdir at hm
      rw [locate_normal s _ _ c (hq c (by simp)) hnames] at hm
      cases hw : s.walk [] (names base ++ name :: q') with
      | none => rw [hw] at hm; cases (Prod.mk.inj hm).2
      | some l0 =>
        rw [hw] at hm
        simp only [Option.map_some] at hm
        split at hm
        · cases (Prod.mk.inj hm).2
        · obtain ⟨rfl, _⟩ := Prod.mk.inj hm
          have hnn : ∀ x ∈ name :: q', NormalName x := by
            intro x hx
            rcases List.mem_cons.mp hx with rfl | hx
            · exact hname
            · exact hq x (by simp [hx])
          have hw' : s.walk b (name :: q') = some l0 := by
            rw [walk_append, walk_mono hk [] _ b hb] at hw
            exact hw
          obtain rfl := walk_normal s b (name :: q') hnn l0 hw'
          have hkey : b ++ name :: q' ++ [c] = b ++ [name] ++ (q' ++ [c]) := by simp
          have hdir : s.get? (b ++ [name] ++ q') = some .dir := by
            have := walk_isDir hw' hnn (by simp)
            simpa using this
          rw [hkey] at ih
          refine ih Q rfl (fun q hq => hP q (by simp [hq])) (fun l hl => ?_) ⟨fun l hl => ?_, fun x => ?_, fun x y hx => ?_⟩
          · rw [Map.get?_insert]; split
            · rfl
            · exact hk l hl
          · rw [Map.get?_insert, if_neg (by rintro rfl; exact hl (List.prefix_append _ _))]
            exact hu.outside l hl
          · rw [Map.get?_insert]
            split
            · rename_i he
              rw [List.append_cancel_left he]
              exact .inr ⟨rfl, .inr hp⟩
            · exact hu.below x
          · rw [Map.get?_insert] at hx ⊢
            split
            · rfl
            · split at hx
              · rename_i he
                have := List.append_inj' (List.append_cancel_left he) rfl
                rw [this.1]; exact hdir
              · exact hu.parents x y hx

/-- C156, partial: if it fails, then whatever call failed and wherever the removal stopped, everything outside the
torrent's directory is as before, and what is left of that directory consists of directories of the torrent only, each of
which has its parent. Missing: that nothing is left, which is false (`C156_leftover_violated`). -/
theorem C156_failure_partial (base name : Bytes) (hname : NormalName name) (files : List TorrentFile)
    (hn : NormalFiles files) (b : Loc) (t t' : Tree) (hb : LeadsTo t base b)
    (hempty : ∀ q, t.get? (b ++ name :: q) = none) (order : List Bytes) (ho : SetOrder order (inserted files))
    (r : Res Unit) (h : Builds base name order t t' r) :
    (∀ l, ¬ (b ++ [name]) <+: l → t'.get? l = t.get? l) ∧
    (∀ q, t'.get? (b ++ name :: q) = none ∨
      t'.get? (b ++ name :: q) = some .dir ∧ (q = [] ∨ ProperAncestor files q)) ∧
    ∀ q c, t'.get? (b ++ name :: (q ++ [c])) ≠ none → t'.get? (b ++ name :: q) = some .dir := by
  have hu : Unfinished files (b ++ [name]) t t' := by
    obtain ⟨Q, hQ, hmem, _, _⟩ := dirs_spec base name files hn order ho
    have h0 : Unfinished files (b ++ [name]) t t :=
      ⟨fun _ _ => rfl, fun q => .inl (by simpa using hempty q), fun q c hc => absurd (by simpa using hempty (q ++ [c])) hc⟩
    cases h with
    | refused => exact h0
    | made hm hl =>
      have hmk := mkdir_ok (fun _ => true) t (workingDir base name) (names base) name b hname
        (names_workingDir base name hname) hb (hempty []) rfl
      rw [hmk] at hm
      obtain ⟨rfl, _⟩ := Prod.mk.inj hm
      refine loop_unfinished base name hname files hn b t hb hl Q hQ (fun q hq => (hmem q).mp hq) (fun l hl => ?_)
        ⟨fun l hl => ?_, fun q => ?_, fun q c hc => ?_⟩
      · rw [Map.get?_insert]; split
        · rfl
        · exact hl
      · rw [Map.get?_insert, if_neg (by rintro rfl; exact hl (List.prefix_refl _))]
      · rw [Map.get?_insert]
        split
        · rename_i he
          exact .inr ⟨rfl, .inl (by simpa using he)⟩
        · exact .inl (by simpa using hempty q)
      · rw [Map.get?_insert, if_neg (by simp)] at hc
        exact absurd (by simpa using hempty (q ++ [c])) hc
  refine ⟨hu.outside, fun q => ?_, fun q c hc => ?_⟩
  · simpa using hu.below q
  · have := hu.parents q c (by simpa using hc)
    simpa using this

/-- C156, violated: whatever the torrent, if it has a directory, the first of its directories may be refused and the removal
may fail at once; then the torrent's own directory stays, and as long as it is there every later start panics, whatever is
allowed by then. -/
theorem C156_leftover_violated (base name : Bytes) (hname : NormalName name) (b : Loc) (t : Tree) (hb : LeadsTo t base b)
    (hempty : ∀ q, t.get? (b ++ name :: q) = none) (order : List Bytes) (ho : order ≠ []) :
    ∃ t', Builds base name order t t' .err ∧ t'.get? (b ++ [name]) = some .dir ∧
      ∀ t2, LeadsTo t2 base b → t2.get? (b ++ [name]) = some .dir → ∀ allowed order',
        MultiFile.new allowed base name order' t2 = (t2, .panic) := by
  have hmk := mkdir_ok (fun _ => true) t (workingDir base name) (names base) name b hname
    (names_workingDir base name hname) hb (hempty []) rfl
  have hk : ∀ l, t.get? l = some .dir → (t.insert (b ++ [name]) .dir).get? l = some .dir := by
    intro l hl
    rw [Map.get?_insert]; split
    · rfl
    · exact hl
  refine ⟨t.insert (b ++ [name]) .dir, .made hmk ?_, by rw [Map.get?_insert, if_pos rfl], fun t2 hb2 hd allowed order' => ?_⟩
  · cases hD : dirsByAscDepth (workingDir base name) order with
    | nil =>
      have := congrArg List.length hD
      simp only [dirsByAscDepth, List.length_mergeSort, List.length_map, List.length_nil, List.length_eq_zero_iff] at this
      exact absurd this ho
    | cons d ds =>
      refine .stuck (l := b ++ [name]) ?_ .stop
      rw [locate_normal _ _ (names base) name hname (names_workingDir base name hname), walk_mono hk [] _ b hb]
      rfl
  · exact C55_restart_violated base name hname b t2 hb2 ((contains_iff _ _).mpr (by rw [hd]; simp)) allowed order'

/-! ## Examples -/

/-- The hypotheses of C156 are met by the torrent of C54, and the directory `p` of it, too, may stay. -/
example : ∃ t', Builds (ascii "/d") (ascii "t") [ascii "p/", ascii "p/q/"] demoTree t' .err ∧
    t'.get? [ascii "d", ascii "t", ascii "p"] = some .dir ∧ t'.get? [ascii "d", ascii "t", ascii "p", ascii "q"] = none := by
  refine ⟨[([ascii "d"], .dir), ([ascii "d", ascii "t"], .dir), ([ascii "d", ascii "t", ascii "p"], .dir)], ?_,
    by decide +kernel, by decide +kernel⟩
  unfold Builds dirsByAscDepth
  rw [List.mergeSort_of_pairwise (by decide)]
  refine .made (t1 := [([ascii "d"], .dir), ([ascii "d", ascii "t"], .dir)]) (by decide +kernel) ?_
  refine .made (t1 := [([ascii "d"], .dir), ([ascii "d", ascii "t"], .dir), ([ascii "d", ascii "t", ascii "p"], .dir)])
    (by decide +kernel) ?_
  exact .stuck (l := [ascii "d", ascii "t"]) (by decide +kernel) .stop

/-- A removal that stops after the first of two directories. -/
example : Removing [ascii "t"] [([ascii "t"], .dir), ([ascii "t", ascii "p"], .dir)] [([ascii "t"], .dir)] := by
  refine .one (k := [ascii "t", ascii "p"]) ⟨[ascii "p"], rfl⟩ (fun c q => ?_) ?_
  · simp [Map.get?]
  · rw [show Map.erase _ _ = ([([ascii "t"], .dir)] : Tree) from by decide +kernel]
    exact .stop

end Nargun
