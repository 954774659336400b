import Verif.MkVariant.Spec
import Verif.Symlink.Lemmas

/-! Lemmas for C96. -/

namespace Tup.MkVariant

open Tup.Symlink
open Tup.Pel (Comps Name)

theorem Ext.refl (k : Disk) : Ext k k := ⟨rfl, rfl, Nat.le_refl _, fun _ _ => rfl, fun _ _ => rfl, fun _ _ => rfl, fun _ _ _ h => h⟩

theorem Ext.trans {a b c : Disk} (h : Ext a b) (h' : Ext b c) : Ext a c := by
  have hl : ∀ i, i < a.next → i < b.next := fun i hi => Nat.lt_of_lt_of_le hi h.next
  exact ⟨h'.root.trans h.root, h'.top.trans h.top, Nat.le_trans h.next h'.next,
    fun i hi => (h'.parent i (hl i hi)).trans (h.parent i hi), fun i hi => (h'.link i (hl i hi)).trans (h.link i hi),
    fun i hi => (h'.isDir i (hl i hi)).trans (h.isDir i hi), fun d n i he => h'.entry d n i (h.entry d n i he)⟩

theorem start_lt {k : Disk} (hg : k.Good) {d : Nat} {s : Str} (hd : d < k.next) : k.fs.start d s < k.next := by
  unfold Fs.start
  split
  · exact hg.root
  · exact hd

/-- What a walk comes to exists. -/
theorem walk_lt {k : Disk} (hg : k.Good) {d q : Nat} {l : List Str} (h : Walk k.fs d l q) : d < k.next → q < k.next := by
  induction h with
  | here => exact id
  | dot _ ih => exact ih
  | up _ ih => exact fun hd => ih (hg.parentLt _ hd)
  | down _ he _ _ ih => exact fun _ => ih (hg.entryLt _ _ _ he).2
  | link _ _ _ _ _ _ _ ih1 ih2 => exact fun hd => ih2 (ih1 (start_lt hg hd))

theorem walk_ext {k k' : Disk} (hg : k.Good) (hx : Ext k k') {d q : Nat} {l : List Str} (h : Walk k.fs d l q) :
    d < k.next → Walk k'.fs d l q := by
  induction h with
  | here => exact fun _ => .here _
  | dot _ ih => exact fun hd => .dot (ih hd)
  | up _ ih =>
    intro hd
    refine .up ?_
    rw [hx.parent _ hd]
    exact ih (hg.parentLt _ hd)
  | down hn he hl _ ih =>
    intro _
    have hi := (hg.entryLt _ _ _ he).2
    exact .down hn (hx.entry _ _ _ he) (by rw [hx.link _ hi]; exact hl) (ih hi)
  | @link d i j q n t lt l hn he hl ht hc hw hw2 ih1 ih2 =>
    intro hd
    have hi := (hg.entryLt _ _ _ he).2
    have hs : k'.fs.start d t = k.fs.start d t := by unfold Fs.start; rw [hx.root]
    refine .link hn (hx.entry _ _ _ he) (by rw [hx.link _ hi]; exact hl) ht hc ?_ (ih2 (walk_lt hg hw (start_lt hg hd)))
    rw [hs]
    exact ih1 (start_lt hg hd)

theorem opens_ext {k k' : Disk} (hg : k.Good) (hx : Ext k k') {d q : Nat} {s : Str} (hd : d < k.next) (h : Opens k.fs d s q) :
    Opens k'.fs d s q := by
  obtain ⟨l, hc, hw⟩ := h
  refine ⟨l, hc, ?_⟩
  have hs : k'.fs.start d s = k.fs.start d s := by unfold Fs.start; rw [hx.root]
  rw [hs]
  exact walk_ext hg hx hw (start_lt hg hd)

theorem opens_lt {k : Disk} (hg : k.Good) {d q : Nat} {s : Str} (hd : d < k.next) (h : Opens k.fs d s q) : q < k.next := by
  obtain ⟨l, _, hw⟩ := h
  exact walk_lt hg hw (start_lt hg hd)

theorem opens_unique {fs : Fs} {d q q' : Nat} {s : Str} (h : Opens fs d s q) (h' : Opens fs d s q') : q = q' := by
  obtain ⟨l, hc, hw⟩ := h
  obtain ⟨l', hc', hw'⟩ := h'
  rw [comps_unique hc' hc] at hw'
  exact walk_unique hw _ hw'

theorem name_head {n : Str} (h : Name n) : n.head? ≠ some '/' := by
  obtain ⟨c, n', rfl⟩ := List.exists_cons_of_ne_nil h.1
  intro h'
  simp only [List.head?_cons, Option.some.injEq] at h'
  exact h.2.1 (by rw [h']; exact List.mem_cons_self)

/-- A directory is opened by its name. -/
theorem opens_name {fs : Fs} {d i q : Nat} {n : Str} (hn : Name n) (he : fs.entry d n = some i) (hl : fs.link i = none) :
    Opens fs d n q ↔ q = i := by
  have hs : fs.start d n = d := by unfold Fs.start; rw [if_neg (name_head hn)]
  constructor
  · rintro ⟨l, hc, hw⟩
    rw [comps_unique hc (comps_name hn), hs] at hw
    cases hw with
    | dot => exact absurd hn name_dot
    | up => exact absurd hn name_up
    | down _ g2 _ g4 => rw [he] at g2; cases g2; cases g4; rfl
    | link _ g2 g3 => rw [he] at g2; cases g2; rw [hl] at g3; cases g3
  · rintro rfl
    exact ⟨[n], comps_name hn, by rw [hs]; exact .down hn he hl (.here _)⟩

theorem mkdir_ext {k : Disk} {n : Str} (he : k.fs.entry k.top n = none) : Ext k (k.mkdir n) := by
  refine ⟨rfl, rfl, Nat.le_succ _, fun i hi => ?_, fun _ _ => rfl, fun i hi => ?_, fun d m i h => ?_⟩
  · exact if_neg (by omega)
  · exact if_neg (by omega)
  · refine (if_neg ?_).trans h
    rintro ⟨rfl, rfl⟩
    rw [he] at h; cases h

theorem mkdir_good {k : Disk} {n : Str} (hg : k.Good) (he : k.fs.entry k.top n = none) : (k.mkdir n).Good := by
  have hnl : k.fs.link k.next = none := by
    cases h : k.fs.link k.next with
    | none => rfl
    | some t => have := (hg.linkLt _ _ h).1; omega
  have hent : ∀ d m i, (k.mkdir n).fs.entry d m = some i → (d = k.top ∧ m = n ∧ i = k.next) ∨ k.fs.entry d m = some i := by
    intro d m i h
    change (if d = k.top ∧ m = n then some k.next else k.fs.entry d m) = some i at h
    split at h
    · next hc => cases h; exact .inl ⟨hc.1, hc.2, rfl⟩
    · exact .inr h
  have hpar : ∀ i, (k.mkdir n).fs.parent i = if i = k.next then k.top else k.fs.parent i := fun _ => rfl
  have hdir : ∀ i, (k.mkdir n).isDir i = if i = k.next then true else k.isDir i := fun _ => rfl
  have htop := hg.top
  refine ⟨?_, ?_, ?_, fun i hi => ?_, fun d m i h hd => ?_, fun d m i h => ?_, fun i t h => ?_, fun i h => ?_, fun d m => ?_⟩
  · exact Nat.lt_succ_of_lt hg.root
  · exact Nat.lt_succ_of_lt hg.top
  · show (k.mkdir n).isDir k.top = true
    rw [hdir, if_neg (by omega)]; exact hg.topDir
  · show (k.mkdir n).fs.parent i < k.next + 1
    have hi : i < k.next + 1 := hi
    rw [hpar]
    split
    · omega
    · exact Nat.lt_succ_of_lt (hg.parentLt _ (by omega))
  · rw [hpar]
    rcases hent _ _ _ h with ⟨rfl, rfl, rfl⟩ | h
    · rw [if_pos rfl]
    · have := (hg.entryLt _ _ _ h).2
      rw [if_neg (by omega)]
      rw [hdir, if_neg (by omega)] at hd
      exact hg.parent _ _ _ h hd
  · show d < k.next + 1 ∧ i < k.next + 1
    rcases hent _ _ _ h with ⟨rfl, rfl, rfl⟩ | h
    · omega
    · have := hg.entryLt _ _ _ h; omega
  · have := hg.linkLt i t h
    refine ⟨Nat.lt_succ_of_lt this.1, ?_⟩
    rw [hdir, if_neg (by omega)]; exact this.2
  · show i < k.next + 1
    rw [hdir] at h
    split at h
    · omega
    · exact Nat.lt_succ_of_lt (hg.dirLt _ h)
  · show m ∈ (if d = k.top then n :: k.names d else k.names d) ↔
      (if d = k.top ∧ m = n then some k.next else k.fs.entry d m).isSome = true
    by_cases h1 : d = k.top
    · by_cases h2 : m = n
      · simp [h1, h2]
      · rw [if_pos h1, if_neg (by simp [h2]), List.mem_cons, hg.names]
        simp [h2]
    · rw [if_neg h1, if_neg (by simp [h1]), hg.names]

theorem symlink_ext {k : Disk} {D : Nat} {n t : Str} (he : k.fs.entry D n = none) : Ext k (k.symlink D n t) := by
  refine ⟨rfl, rfl, Nat.le_succ _, fun i hi => ?_, fun i hi => ?_, fun i hi => rfl, fun d m i h => ?_⟩
  · exact if_neg (by omega)
  · exact if_neg (by omega)
  · refine (if_neg ?_).trans h
    rintro ⟨rfl, rfl⟩
    rw [he] at h; cases h

theorem symlink_good {k : Disk} {D : Nat} {n t : Str} (hg : k.Good) (hD : D < k.next) : (k.symlink D n t).Good := by
  have hent : ∀ d m i, (k.symlink D n t).fs.entry d m = some i → (d = D ∧ m = n ∧ i = k.next) ∨ k.fs.entry d m = some i := by
    intro d m i h
    change (if d = D ∧ m = n then some k.next else k.fs.entry d m) = some i at h
    split at h
    · next hc => cases h; exact .inl ⟨hc.1, hc.2, rfl⟩
    · exact .inr h
  have hpar : ∀ i, (k.symlink D n t).fs.parent i = if i = k.next then D else k.fs.parent i := fun _ => rfl
  have hdn : k.isDir k.next = false := by
    cases h : k.isDir k.next with
    | false => rfl
    | true => have := hg.dirLt _ h; omega
  refine ⟨?_, ?_, ?_, fun i hi => ?_, fun d m i h hd => ?_, fun d m i h => ?_, fun i t' h => ?_, fun i h => ?_, fun d m => ?_⟩
  · exact Nat.lt_succ_of_lt hg.root
  · exact Nat.lt_succ_of_lt hg.top
  · exact hg.topDir
  · have hi : i < k.next + 1 := hi
    rw [hpar]
    show _ < k.next + 1
    split
    · omega
    · exact Nat.lt_succ_of_lt (hg.parentLt _ (by omega))
  · rcases hent _ _ _ h with ⟨rfl, rfl, rfl⟩ | h
    · change k.isDir k.next = true at hd
      rw [hdn] at hd; cases hd
    · have := (hg.entryLt _ _ _ h).2
      rw [hpar, if_neg (by omega)]
      exact hg.parent _ _ _ h hd
  · show d < k.next + 1 ∧ i < k.next + 1
    rcases hent _ _ _ h with ⟨rfl, rfl, rfl⟩ | h
    · omega
    · have := hg.entryLt _ _ _ h; omega
  · change (if i = k.next then some t else k.fs.link i) = some t' at h
    show i < k.next + 1 ∧ k.isDir i = false
    split at h
    · next hc => rw [hc]; exact ⟨by omega, hdn⟩
    · have := hg.linkLt i t' h
      exact ⟨by omega, this.2⟩
  · exact Nat.lt_succ_of_lt (hg.dirLt _ h)
  · show m ∈ (if d = D then n :: k.names d else k.names d) ↔
      (if d = D ∧ m = n then some k.next else k.fs.entry d m).isSome = true
    by_cases h1 : d = D
    · by_cases h2 : m = n
      · simp [h1, h2]
      · rw [if_pos h1, if_neg (by simp [h2]), List.mem_cons, hg.names]
        simp [h2]
    · rw [if_neg h1, if_neg (by simp [h1]), hg.names]

/-- What is on the disk after `makeDir`. -/
theorem makeDir_ok {chdir : Disk → Str → Option Nat} {k : Disk} {n : Str} (hg : k.Good) (h : (makeDir chdir k n).2 = true) :
    n.length ≤ 255 ∧ (makeDir chdir k n).1.Good ∧ Ext k (makeDir chdir k n).1 ∧
      ((k.fs.entry k.top n = none ∧ (makeDir chdir k n).1 = k.mkdir n) ∨
        ((k.fs.entry k.top n).isSome ∧ (makeDir chdir k n).1 = k ∧ ∃ D, chdir k n = some D ∧ dirEmpty (k.names D) = true)) := by
  unfold makeDir at h ⊢
  by_cases hl : n.length > 255
  · rw [if_pos hl] at h; cases h
  rw [if_neg hl] at h ⊢
  refine ⟨by omega, ?_⟩
  cases he : k.fs.entry k.top n with
  | none => exact ⟨mkdir_good hg he, mkdir_ext he, .inl ⟨rfl, rfl⟩⟩
  | some i =>
    rw [he] at h
    dsimp only at h ⊢
    cases hc : chdir k n with
    | none => rw [hc] at h; cases h
    | some D =>
      rw [hc] at h
      exact ⟨hg, .refl k, .inr ⟨rfl, rfl, D, rfl, h⟩⟩

/-- What `createVariant` does when it succeeds. -/
theorem create_ok {chdir : Disk → Str → Option Nat} {k : Disk} {sub config : Str}
    (h : (createVariant chdir sub config k).2 = true) :
    (makeDir chdir k (dirName config)).2 = true ∧ ∃ D, chdir (makeDir chdir k (dirName config)).1 (dirName config) = some D ∧
      (makeDir chdir k (dirName config)).1.fs.entry D "tup.config".toList = none ∧
      (createVariant chdir sub config k).1 = (makeDir chdir k (dirName config)).1.symlink D "tup.config".toList (linkText sub config) := by
  unfold createVariant at h ⊢
  dsimp only at h ⊢
  cases hm : (makeDir chdir k (dirName config)).2 with
  | false => rw [hm] at h; simp [hm] at h
  | true =>
    rw [hm] at h
    rw [if_neg (by simp)] at h ⊢
    split at h
    · cases h
    next h1 =>
    split at h
    · cases h
    next h2 =>
    rw [if_neg h1, if_neg h2]
    cases hc : chdir (makeDir chdir k (dirName config)).1 (dirName config) with
    | none => rw [hc] at h; cases h
    | some D =>
      rw [hc] at h
      dsimp only at h ⊢
      split at h
      · cases h
      next h3 =>
      refine ⟨rfl, D, rfl, ?_, by rw [if_neg h3]⟩
      cases he : (makeDir chdir k (dirName config)).1.fs.entry D "tup.config".toList with
      | none => rfl
      | some i => rw [he] at h3; exact absurd rfl h3

theorem mem_take {p : Char → Bool} {c : Char} {l : Str} (h : c ∈ l.takeWhile p) : p c = true ∧ c ∈ l := by
  induction l with
  | nil => cases h
  | cons x l ih =>
    rw [List.takeWhile_cons] at h
    split at h
    · next hx =>
      rcases List.mem_cons.1 h with rfl | h
      · exact ⟨hx, List.mem_cons_self⟩
      · exact ⟨(ih h).1, List.mem_cons_of_mem _ (ih h).2⟩
    · cases h

theorem fileName_split (config : Str) : ∃ u, config = u ++ fileName config ∧ (u = [] ∨ u.getLast? = some '/') ∧ '/' ∉ fileName config := by
  refine ⟨(config.reverse.dropWhile (· ≠ '/')).reverse, ?_, ?_, ?_⟩
  · unfold fileName
    rw [← List.reverse_append, List.takeWhile_append_dropWhile, List.reverse_reverse]
  · rw [List.getLast?_reverse]
    cases hd : config.reverse.dropWhile (· ≠ '/') with
    | nil => exact .inl rfl
    | cons c t =>
      right
      have := List.head?_dropWhile_not (fun c => decide (c ≠ '/')) config.reverse
      rw [hd] at this
      simpa using this
  · intro hm
    unfold fileName at hm
    rw [List.mem_reverse] at hm
    have := (mem_take hm).1
    simp at this

theorem takeWhile_dot (f : Str) : '.' ∉ f.takeWhile (· ≠ '.') ∧ (f = f.takeWhile (· ≠ '.') ∨ ∃ r, f = f.takeWhile (· ≠ '.') ++ '.' :: r) := by
  refine ⟨fun hm => ?_, ?_⟩
  · have := (mem_take hm).1
    simp at this
  · have h := List.takeWhile_append_dropWhile (p := fun c => decide (c ≠ '.')) (l := f)
    cases hd : f.dropWhile (· ≠ '.') with
    | nil => left; rw [hd, List.append_nil] at h; exact h.symm
    | cons c t =>
      right
      have := List.head?_dropWhile_not (fun c => decide (c ≠ '.')) f
      rw [hd] at this
      have hc : c = '.' := by simpa using this
      refine ⟨t, ?_⟩
      rw [hd, hc] at h
      exact h.symm

/-- The name of the directory. -/
theorem dirName_stem {config : Str} (hl : (dirName config).length ≤ 255) : ∃ stem, Stem config stem ∧ dirName config = "build-".toList ++ stem ∧ '/' ∉ stem := by
  obtain ⟨u, h1, h2, h3⟩ := fileName_split config
  obtain ⟨h4, h5⟩ := takeWhile_dot (fileName config)
  refine ⟨(fileName config).takeWhile (· ≠ '.'), ⟨u, _, h1, h2, h3, h4, h5⟩, ?_, ?_⟩
  · unfold dirName at hl ⊢
    rw [List.length_take] at hl
    exact List.take_of_length_le (by omega)
  · exact fun hm => h3 ((mem_take hm).2)

theorem dirName_name {config : Str} (hl : (dirName config).length ≤ 255) : Name (dirName config) := by
  obtain ⟨stem, _, h, hs⟩ := dirName_stem hl
  have hb : ("build-".toList : Str) = 'b' :: "uild-".toList := by decide +kernel
  rw [h]
  refine ⟨by rw [hb]; simp, ?_, ?_, ?_⟩
  · rw [List.mem_append]
    rintro (h | h)
    · revert h; decide +kernel
    · exact hs h
  · rw [hb]; intro h; injection h with h1 _; exact absurd h1 (by decide)
  · rw [hb]; intro h; injection h with h1 _; exact absurd h1 (by decide)

theorem dirName_ne {config : Str} : dirName config ≠ "tup.config".toList := by
  have hb : ("build-".toList : Str) = 'b' :: "uild-".toList := by decide +kernel
  have ht : ("tup.config".toList : Str) = 't' :: "up.config".toList := by decide +kernel
  unfold dirName
  rw [hb, ht, List.cons_append, List.take_succ_cons]
  intro h
  injection h with h1 _
  exact absurd h1 (by decide)

theorem tc_name : Name "tup.config".toList := by
  unfold Name; decide +kernel

theorem linkText_ne {sub config : Str} : linkText sub config ≠ [] := by
  have hd : ("../".toList : Str) = '.' :: "./".toList := by decide +kernel
  unfold linkText
  rw [hd]
  split <;> simp

theorem linkText_head {sub config : Str} : (linkText sub config).head? ≠ some '/' := by
  have hd : ("../".toList : Str) = '.' :: "./".toList := by decide +kernel
  unfold linkText
  rw [hd]
  split <;> simp

theorem last_slash {s : Str} : (s ++ "/".toList).getLast? = some '/' := by
  rw [show ("/".toList : Str) = ['/'] from by decide +kernel]
  simp

theorem comps_slash {s : Str} {l : List Str} (h : Comps s l) : Comps (s ++ "/".toList) l := by
  rw [show ("/".toList : Str) = ['/'] from by decide +kernel]
  induction h with
  | nil h1 =>
    refine .nil fun c hc => ?_
    rcases List.mem_append.1 hc with h | h
    · exact h1 c h
    · simpa using h
  | @cons w e t l h1 h2 h3 h4 h5 ih =>
    rw [List.append_assoc]
    refine .cons h1 h2 h3 (fun c hc => ?_) ih
    cases t with
    | nil => simp at hc; exact hc.symm
    | cons x t => exact h4 c (by simpa using hc)

/-- The components of the link. -/
theorem linkText_comps {sub config : Str} {ls lc : List Str} (hs : Comps sub ls) (hc : Comps config lc) :
    Comps (linkText sub config) ("..".toList :: (ls ++ lc)) := by
  have hup : Comps "../".toList ["..".toList] := by
    have := Comps.cons (w := []) (e := "..".toList) (t := "/".toList) (l := []) (by simp) (by decide) (by decide) (by decide) (.nil (by decide))
    have h2 : ([] ++ "..".toList ++ "/".toList : Str) = "../".toList := by decide +kernel
    rwa [h2] at this
  have hl : ("../".toList : Str).getLast? = some '/' := by decide +kernel
  unfold linkText
  split
  · next hne =>
    have h1 := comps_slash (comps_join hup hs (.inl hl))
    have h2 := comps_join h1 hc (.inl last_slash)
    simpa using h2
  · next he =>
    have : sub = [] := Classical.byContradiction he
    rw [this] at hs
    rw [comps_unique hs (.nil (by simp))]
    simpa using comps_join hup hc (.inl hl)

end Tup.MkVariant
