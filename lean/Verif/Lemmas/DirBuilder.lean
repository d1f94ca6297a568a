import Verif.Spec.DirBuilder
import Verif.Lemmas.Lists

/-! # Lemmas about paths and the directory tree -/

namespace Nargun

open Spec

/-! ## Paths -/

theorem splitSlash_ne_nil (a : Bytes) : splitSlash a ≠ [] := by
  cases a with
  | nil => simp [splitSlash]
  | cons c cs =>
    simp only [splitSlash]
    split
    · simp
    · split <;> simp

theorem splitSlash_slash (a b : Bytes) : splitSlash (a ++ 47#8 :: b) = splitSlash a ++ splitSlash b := by
  induction a with
  | nil => simp [splitSlash]
  | cons c cs ih =>
    simp only [List.cons_append, splitSlash, ih]
    split
    · rfl
    · cases h : splitSlash cs with
      | nil => exact absurd h (splitSlash_ne_nil cs)
      | cons w ws => rfl

theorem splitSlash_noslash (a : Bytes) (h : 47#8 ∉ a) : splitSlash a = [a] := by
  induction a with
  | nil => rfl
  | cons c cs ih =>
    simp only [List.mem_cons, not_or] at h
    simp only [splitSlash, if_neg (Ne.symm h.1), ih h.2]

theorem names_slash (a b : Bytes) : names (a ++ 47#8 :: b) = names a ++ names b := by
  unfold names; rw [splitSlash_slash, List.filter_append]

theorem ascii_slash : ascii "/" = [47#8] := by decide

theorem names_sep (a b : Bytes) : names (a ++ ascii "/" ++ b) = names a ++ names b := by
  rw [ascii_slash, List.append_assoc]; exact names_slash a b

theorem names_nil : names [] = [] := by decide

theorem names_normal {c : Bytes} (h : NormalName c) : names c = [c] := by
  unfold names
  rw [splitSlash_noslash c h.2.1]
  have : c.isEmpty = false := by
    cases c with
    | nil => exact absurd rfl h.1
    | cons _ _ => rfl
  simp [this]

theorem names_end_slash (a : Bytes) : names (a ++ ascii "/") = names a := by
  have := names_sep a []
  rw [List.append_nil, names_nil, List.append_nil] at this
  exact this

theorem names_dirPath (dir : Bytes) (hd : ∃ a, dir = a ++ ascii "/") (q : List Bytes) (hq : ∀ c ∈ q, NormalName c) :
    names (dirPath dir q) = names dir ++ q := by
  induction q generalizing dir with
  | nil => simp [dirPath]
  | cons c q ih =>
    obtain ⟨a, rfl⟩ := hd
    have h1 : dirPath (a ++ ascii "/") (c :: q) = dirPath (a ++ ascii "/" ++ c ++ ascii "/") q := by
      simp [dirPath]
    rw [h1, ih _ ⟨_, rfl⟩ (fun x hx => hq x (List.mem_cons_of_mem _ hx)), names_end_slash, names_sep,
      names_end_slash, names_normal (hq c (by simp))]
    simp

theorem names_workingDir (base name : Bytes) (hn : NormalName name) :
    names (DirBuilder.workingDir base name) = names base ++ [name] := by
  unfold DirBuilder.workingDir
  rw [names_end_slash, names_sep, names_normal hn]

theorem names_joinPath (p : List Bytes) (hp : ∀ c ∈ p, NormalName c) : names (MultiFile.joinPath p) = p := by
  match p with
  | [] => exact names_nil
  | [c] => exact names_normal (hp c (by simp))
  | c :: c' :: cs =>
    show names (c ++ ascii "/" ++ MultiFile.joinPath (c' :: cs)) = _
    rw [names_sep, names_normal (hp c (by simp)), names_joinPath (c' :: cs) (fun x hx => hp x (List.mem_cons_of_mem _ hx))]
    rfl

/-! ## The strings in the set -/

theorem mem_ancestorStrings (pre : Bytes) (cs : List Bytes) (x : Bytes) :
    x ∈ DirBuilder.ancestorStrings pre cs ↔ ∃ q, q ≠ [] ∧ (∃ rest, cs = q ++ rest) ∧ x = dirPath pre q := by
  induction cs generalizing pre with
  | nil =>
    simp only [DirBuilder.ancestorStrings, List.not_mem_nil, false_iff]
    rintro ⟨q, h1, ⟨rest, h2⟩, _⟩
    exact h1 (List.append_eq_nil_iff.mp h2.symm).1
  | cons c cs ih =>
    simp only [DirBuilder.ancestorStrings, List.mem_cons, ih]
    constructor
    · rintro (rfl | ⟨q, h1, ⟨rest, rfl⟩, rfl⟩)
      · exact ⟨[c], by simp, ⟨cs, rfl⟩, by simp [dirPath]⟩
      · exact ⟨c :: q, by simp, ⟨rest, rfl⟩, by simp [dirPath]⟩
    · rintro ⟨q, h1, ⟨rest, h2⟩, rfl⟩
      cases q with
      | nil => exact absurd rfl h1
      | cons c' q =>
        obtain ⟨rfl, rfl⟩ := List.cons.inj h2
        by_cases hq : q = []
        · left; subst hq; simp [dirPath]
        · right; exact ⟨q, hq, ⟨rest, rfl⟩, by simp [dirPath]⟩

theorem mem_inserted (files : List TorrentFile) (x : Bytes) :
    x ∈ DirBuilder.inserted files ↔ ∃ q, ProperAncestor files q ∧ x = dirPath [] q := by
  unfold DirBuilder.inserted
  simp only [List.mem_flatMap, List.mem_filter, decide_eq_true_eq, mem_ancestorStrings]
  constructor
  · rintro ⟨f, ⟨hf, hl⟩, q, hq, ⟨rest, hr⟩, rfl⟩
    refine ⟨q, ⟨hq, f, hf, rest ++ [f.path.getLast (by intro h; rw [h] at hl; simp at hl)], by simp, ?_⟩, rfl⟩
    rw [← List.append_assoc, ← hr, List.dropLast_concat_getLast]
  · rintro ⟨q, ⟨hq, f, hf, rest, hr, he⟩, rfl⟩
    refine ⟨f, ⟨hf, ?_⟩, q, hq, ⟨rest.dropLast, ?_⟩, rfl⟩
    · rw [he, List.length_append]
      have := List.length_pos_iff.mpr hq
      have := List.length_pos_iff.mpr hr
      omega
    · rw [he, List.dropLast_append_of_ne_nil hr]

theorem ancestor_normal {files : List TorrentFile} (hn : NormalFiles files) {q : List Bytes}
    (h : ProperAncestor files q) : ∀ c ∈ q, NormalName c := by
  obtain ⟨_, f, hf, rest, _, he⟩ := h
  intro c hc
  exact hn f hf c (by rw [he]; exact List.mem_append_left _ hc)

theorem ancestor_parent {files : List TorrentFile} {q : List Bytes} {c : Bytes} (h : ProperAncestor files (q ++ [c]))
    (hq : q ≠ []) : ProperAncestor files q := by
  obtain ⟨_, f, hf, rest, hr, he⟩ := h
  exact ⟨hq, f, hf, c :: rest, by simp, by rw [he]; simp⟩

theorem count_dirPath (dir : Bytes) (q : List Bytes) (hq : ∀ c ∈ q, NormalName c) :
    (dirPath dir q).count 47#8 = dir.count 47#8 + q.length := by
  unfold dirPath
  rw [List.count_append]
  congr 1
  induction q with
  | nil => rfl
  | cons c q ih =>
    have hc : c.count 47#8 = 0 := List.count_eq_zero.mpr (hq c (by simp)).2.1
    have h1 : (ascii "/").count 47#8 = 1 := by decide
    rw [List.map_cons, List.flatten_cons, List.count_append, List.count_append,
      ih (fun x hx => hq x (List.mem_cons_of_mem _ hx)), hc, h1, List.length_cons]
    omega

theorem dirPath_inj {dir : Bytes} (hd : ∃ a, dir = a ++ ascii "/") {q q' : List Bytes} (hq : ∀ c ∈ q, NormalName c)
    (hq' : ∀ c ∈ q', NormalName c) (h : dirPath dir q = dirPath dir q') : q = q' := by
  have := congrArg names h
  rw [names_dirPath dir hd q hq, names_dirPath dir hd q' hq'] at this
  exact List.append_cancel_left this

/-! ## The tree -/

theorem walk_append (t : Tree) (cur : Loc) (a b : List Bytes) :
    t.walk cur (a ++ b) = (t.walk cur a).bind (fun l => t.walk l b) := by
  induction a generalizing cur with
  | nil => rfl
  | cons c a ih =>
    simp only [List.cons_append, Tree.walk]
    split
    · exact ih _
    · split
      · exact ih _
      · split
        · exact ih _
        · rfl

theorem walk_normal (t : Tree) (cur : Loc) (q : List Bytes) (hq : ∀ c ∈ q, NormalName c) (l : Loc)
    (h : t.walk cur q = some l) : l = cur ++ q := by
  induction q generalizing cur with
  | nil => simp only [Tree.walk] at h; cases h; simp
  | cons c q ih =>
    have hc := hq c (by simp)
    simp only [Tree.walk, if_neg hc.2.2.1, if_neg hc.2.2.2] at h
    split at h
    · rw [ih _ (fun x hx => hq x (List.mem_cons_of_mem _ hx)) h]; simp
    · cases h

theorem walk_dirs (t : Tree) (cur : Loc) (q : List Bytes) (hq : ∀ c ∈ q, NormalName c)
    (h : ∀ p r, p ≠ [] → q = p ++ r → t.isDir (cur ++ p) = true) : t.walk cur q = some (cur ++ q) := by
  induction q generalizing cur with
  | nil => simp [Tree.walk]
  | cons c q ih =>
    have hc := hq c (by simp)
    simp only [Tree.walk, if_neg hc.2.2.1, if_neg hc.2.2.2]
    rw [if_pos (h [c] q (by simp) rfl), ih _ (fun x hx => hq x (List.mem_cons_of_mem _ hx))]
    · simp
    · intro p r hp he
      have := h (c :: p) r (by simp) (by rw [he]; rfl)
      rw [List.append_assoc]; exact this

theorem isDir_mono {t t' : Tree} (h : ∀ l, t.get? l = some .dir → t'.get? l = some .dir) (l : Loc)
    (hl : t.isDir l = true) : t'.isDir l = true := by
  unfold Tree.isDir at hl ⊢
  simp only [Bool.or_eq_true, beq_iff_eq] at hl ⊢
  rcases hl with hl | hl
  · exact .inl hl
  · exact .inr (h l hl)

theorem walk_mono {t t' : Tree} (h : ∀ l, t.get? l = some .dir → t'.get? l = some .dir) (cur : Loc) (q : List Bytes)
    (l : Loc) (hw : t.walk cur q = some l) : t'.walk cur q = some l := by
  induction q generalizing cur with
  | nil => exact hw
  | cons c q ih =>
    simp only [Tree.walk] at hw ⊢
    split
    · rw [if_pos (by assumption)] at hw; exact ih _ hw
    · rw [if_neg (by assumption)] at hw
      split
      · rw [if_pos (by assumption)] at hw; exact ih _ hw
      · rw [if_neg (by assumption)] at hw
        split at hw
        · rw [if_pos (isDir_mono h _ (by assumption))]; exact ih _ hw
        · cases hw

/-- A path of existing directories and one more normal name. -/
theorem locate_normal (t : Tree) (path : Bytes) (pre : List Bytes) (c : Bytes) (hc : NormalName c)
    (hnames : names path = pre ++ [c]) : t.locate path = (t.walk [] pre).map (· ++ [c]) := by
  unfold Tree.locate
  rw [hnames, List.getLast?_append, List.getLast?_singleton]
  simp only [Option.some_or]
  rw [if_neg (by
    rintro (h | h)
    · exact hc.2.2.1 h
    · exact hc.2.2.2 h), List.dropLast_concat]

theorem contains_iff (t : Tree) (l : Loc) : t.contains l = true ↔ t.get? l ≠ none := by
  unfold Map.contains
  cases t.get? l <;> simp

end Nargun
