import Verif.Fuse.History

/-
C22: what is reported about a command's accesses is what it did to its file system: the files it wrote are those that it made and that
are there at the end, with the content they have at the end, and its temporary files are reported neither as written nor as read.
-/

namespace Tup.Fuse

open Tup (Str)

variable {C : Type}

/-! ### The private file system is well defined -/

theorem sees_unique {real : Str → Option (Node C)} {r : Own C} {f : Str} {n m : Option (Node C)} (h : Sees real r f n) (g : Sees real r f m) : n = m := by
  cases h <;> cases g <;> simp_all

theorem sees_total (real : Str → Option (Node C)) (r : Own C) (f : Str) : ∃ n, Sees real r f n := by
  by_cases hd : r.dirs f
  · exact ⟨_, .dir hd⟩
  · cases e : r.files f with
    | none => exact ⟨_, .other hd e⟩
    | some c => exact ⟨_, .file c hd e⟩

/-- An operation has only one outcome. -/
theorem does_unique {real : Str → Option (Node C)} {r r₁ r₂ : Own C} {o : Op C} {a b : Bool} (h : Does real r o a r₁) (g : Does real r o b r₂) :
    a = b ∧ r₁ = r₂ := by
  have key : ∀ {f : Str} {n m : Option (Node C)}, Sees real r f n → Sees real r f m → n = m := fun h g => sees_unique h g
  have kdir : ∀ {f : Str} {n : Option (Node C)}, r.dirs f → Sees real r f n → n = some .dir := fun h g => key g (.dir h)
  cases h with
  | read f n hs =>
    cases g with
    | read _ m hm => rw [key hs hm]; exact ⟨rfl, rfl⟩
  | create f c hs =>
    cases g with
    | create _ _ _ => exact ⟨rfl, rfl⟩
    | change _ _ c₀ h2 _ => cases key hs h2
    | noPut _ _ n h2 _ => cases key hs h2
  | change f c c₀ hs hm =>
    cases g with
    | create _ _ h2 => cases key hs h2
    | change _ _ _ _ _ => exact ⟨rfl, rfl⟩
    | noPut _ _ n h2 h3 =>
      cases key hs h2
      rcases h3 with h3 | h3
      · cases h3
      · exact absurd hm h3
  | noPut f c n hs hn =>
    cases g with
    | create _ _ h2 => cases key hs h2
    | change _ _ _ h2 hm =>
      cases key hs h2
      rcases hn with h3 | h3
      · cases h3
      · exact absurd hm h3
    | noPut _ _ _ _ _ => exact ⟨rfl, rfl⟩
  | unlink f c hs hm =>
    cases g with
    | unlink _ _ _ _ => exact ⟨rfl, rfl⟩
    | noUnlink _ n h2 h3 =>
      cases key hs h2
      rcases h3 with h3 | h3
      · exact absurd ⟨c, rfl⟩ h3
      · exact absurd hm h3
  | noUnlink f n hs hn =>
    cases g with
    | unlink _ c h2 hm =>
      cases key hs h2
      rcases hn with h3 | h3
      · exact absurd ⟨c, rfl⟩ h3
      · exact absurd hm h3
    | noUnlink _ _ _ _ => exact ⟨rfl, rfl⟩
  | rename f g c n ne hs hm hg hnd hi =>
    cases g with
    | rename _ _ c' _ _ h2 _ _ _ _ => cases key hs h2; exact ⟨rfl, rfl⟩
    | renameDir _ _ _ h2 _ _ _ => cases kdir h2 hs
    | renameSame _ _ _ => exact absurd rfl ne
    | noRename _ _ n' m' _ h2 h3 h4 =>
      cases key hs h2
      cases key hg h3
      rcases h4 with h4 | h4 | h4 | ⟨h4, _⟩ | ⟨_, h4⟩
      · cases h4
      · exact absurd hm h4
      · exact absurd h4 hi
      · cases h4
      · exact absurd h4 hnd
  | renameDir f g ne hf hnf hg hi =>
    cases g with
    | rename _ _ c' _ _ h2 _ _ _ _ => cases kdir hf h2
    | renameDir _ _ _ _ _ _ _ => exact ⟨rfl, rfl⟩
    | renameSame _ _ _ => exact absurd rfl ne
    | noRename _ _ n' m' _ h2 h3 h4 =>
      cases kdir hf h2
      cases key hg h3
      rcases h4 with h4 | h4 | h4 | ⟨_, _, h4⟩ | ⟨_, h4⟩
      · cases h4
      · exact absurd (Or.inl hf) h4
      · exact absurd h4 hi
      · cases h4
      · cases h4
  | renameSame f n hs =>
    cases g with
    | rename _ _ _ _ ne _ _ _ _ _ => exact absurd rfl ne
    | renameDir _ _ ne _ _ _ _ => exact absurd rfl ne
    | renameSame _ m h2 => rw [key hs h2]; exact ⟨rfl, rfl⟩
    | noRename _ _ _ _ ne _ _ _ => exact absurd rfl ne
  | noRename f g n m ne hs hg hn =>
    cases g with
    | rename _ _ c' _ _ h2 hm h3 hnd hi =>
      cases key hs h2
      cases key hg h3
      rcases hn with h4 | h4 | h4 | ⟨h4, _⟩ | ⟨_, h4⟩
      · cases h4
      · exact absurd hm h4
      · exact absurd h4 hi
      · cases h4
      · exact absurd h4 hnd
    | renameDir _ _ _ hf _ h3 hi =>
      cases kdir hf hs
      cases key hg h3
      rcases hn with h4 | h4 | h4 | ⟨_, _, h4⟩ | ⟨_, h4⟩
      · cases h4
      · exact absurd (Or.inl hf) h4
      · exact absurd h4 hi
      · cases h4
      · cases h4
    | renameSame _ _ _ => exact absurd rfl ne
    | noRename _ _ _ _ _ _ _ _ => exact ⟨rfl, rfl⟩
  | mkdir f hs =>
    cases g with
    | mkdir _ _ => exact ⟨rfl, rfl⟩
    | noMkdir _ n h2 => cases key hs h2
  | noMkdir f n hs =>
    cases g with
    | mkdir _ h2 => cases key hs h2
    | noMkdir _ _ _ => exact ⟨rfl, rfl⟩
  | rmdir f hf hnf =>
    cases g with
    | rmdir _ _ _ => exact ⟨rfl, rfl⟩
    | noRmdir _ h2 =>
      rcases h2 with h2 | h2
      · exact absurd hf h2
      · exact absurd h2 hnf
  | noRmdir f hn =>
    cases g with
    | rmdir _ hf hnf =>
      rcases hn with h2 | h2
      · exact absurd hf h2
      · exact absurd h2 hnf
    | noRmdir _ _ => exact ⟨rfl, rfl⟩
  | truncate f c c₀ hs hm =>
    cases g with
    | truncate _ _ _ _ _ => exact ⟨rfl, rfl⟩
    | noTruncate _ _ n h2 h3 =>
      cases key hs h2
      rcases h3 with h3 | h3
      · exact absurd ⟨c₀, rfl⟩ h3
      · exact absurd hm h3
  | noTruncate f c n hs hn =>
    cases g with
    | truncate _ _ c₀ h2 hm =>
      cases key hs h2
      rcases hn with h3 | h3
      · exact absurd ⟨c₀, rfl⟩ h3
      · exact absurd hm h3
    | noTruncate _ _ _ _ _ => exact ⟨rfl, rfl⟩

/-- A usual operation has an outcome. -/
theorem does_total {real : Str → Option (Node C)} {r : Own C} {o : Op C} (hu : Usual real r o) : ∃ b r', Does real r o b r' := by
  cases o with
  | read f =>
    obtain ⟨n, h⟩ := sees_total real r f
    exact ⟨_, _, .read f n h⟩
  | put f c =>
    obtain ⟨n, h⟩ := sees_total real r f
    match n, h with
    | none, h => exact ⟨_, _, .create f c h⟩
    | some .dir, h => exact ⟨_, _, .noPut f c _ h (Or.inl rfl)⟩
    | some (.file c₀), h => exact ⟨_, _, .change f c c₀ h (hu ⟨c₀, h⟩)⟩
  | unlink f =>
    obtain ⟨n, h⟩ := sees_total real r f
    by_cases hm : r.made f
    · match n, h with
      | none, h => exact ⟨_, _, .noUnlink f _ h (Or.inl (by rintro ⟨_, h⟩; cases h))⟩
      | some .dir, h => exact ⟨_, _, .noUnlink f _ h (Or.inl (by rintro ⟨_, h⟩; cases h))⟩
      | some (.file c₀), h => exact ⟨_, _, .unlink f c₀ h hm⟩
    · exact ⟨_, _, .noUnlink f _ h (Or.inr hm)⟩
  | rename f g =>
    obtain ⟨n, h⟩ := sees_total real r f
    by_cases ne : f = g
    · subst ne
      exact ⟨_, _, .renameSame f n h⟩
    · obtain ⟨m, hg⟩ := sees_total real r g
      by_cases hm : r.made f
      · by_cases hi : Inside f g
        · exact ⟨_, _, .noRename f g n m ne h hg (Or.inr (Or.inr (Or.inl hi)))⟩
        · match n, h with
          | none, h => exact ⟨_, _, .noRename f g _ m ne h hg (Or.inl rfl)⟩
          | some .dir, h =>
            have hd : r.dirs f := by
              refine Classical.byContradiction fun hd => ?_
              rcases hm with hm | hm
              · exact hd hm
              · cases e : r.files f with
                | none => exact hm e
                | some c => cases sees_unique h (.file c hd e)
            obtain ⟨hnf, hng⟩ := (hu ne).2 hd
            match m, hg with
            | none, hg => exact ⟨_, _, .renameDir f g ne hd hnf hg hi⟩
            | some .dir, hg => exact absurd hg hng
            | some (.file c), hg => exact ⟨_, _, .noRename f g _ _ ne h hg (Or.inr (Or.inr (Or.inr (Or.inl ⟨rfl, c, rfl⟩))))⟩
          | some (.file c), h =>
            by_cases hd : m = some .dir
            · exact ⟨_, _, .noRename f g _ m ne h hg (Or.inr (Or.inr (Or.inr (Or.inr ⟨⟨c, rfl⟩, hd⟩))))⟩
            · exact ⟨_, _, .rename f g c m ne h hm hg hd hi⟩
      · exact ⟨_, _, .noRename f g n m ne h hg (Or.inr (Or.inl hm))⟩
  | mkdir f =>
    obtain ⟨n, h⟩ := sees_total real r f
    match n, h with
    | none, h => exact ⟨_, _, .mkdir f h⟩
    | some n, h => exact ⟨_, _, .noMkdir f n h⟩
  | rmdir f =>
    by_cases hd : r.dirs f
    · by_cases hf : r.full f
      · exact ⟨_, _, .noRmdir f (Or.inr hf)⟩
      · exact ⟨_, _, .rmdir f hd hf⟩
    · exact ⟨_, _, .noRmdir f (Or.inl hd)⟩
  | truncate f c =>
    obtain ⟨n, h⟩ := sees_total real r f
    match n, h with
    | none, h => exact ⟨_, _, .noTruncate f c _ h (Or.inl (by rintro ⟨_, h⟩; cases h))⟩
    | some .dir, h => exact ⟨_, _, .noTruncate f c _ h (Or.inl (by rintro ⟨_, h⟩; cases h))⟩
    | some (.file c₀), h => exact ⟨_, _, .truncate f c c₀ h (hu ⟨c₀, h⟩)⟩

theorem renamed {real : Str → Option (Node C)} {r r' : Own C} {f g : Str} {b : Bool} (hd : Does real r (.rename f g) b r') (hb : b = true) (ne : g ≠ f) :
    (∃ n, Sees real r g n ∧ n ≠ some .dir ∧ ¬ Inside f g) ∨ r.dirs f := by
  cases hd with
  | rename _ _ c n _ _ _ h3 hnd hi => exact Or.inl ⟨n, h3, hnd, hi⟩
  | renameDir _ _ _ h2 _ _ _ => exact Or.inr h2
  | renameSame => exact absurd rfl ne
  | noRename => cases hb

/-! ### C22 -/

/-- **C22**, what the command sees: for every sequence of operations, those of the command succeed and fail as in a file system of its
own, and afterwards it finds at each path what it has made there, else what was there before. -/
theorem c22_private {real : Str → Option (Node C)} {os : List (Op C)} {bs : List Bool} {r : Own C} (h : Runs real {} os bs r) :
    (run real {} os).2 = bs ∧ ∀ f n, lookup real (run real {} os).1 f = n ↔ Sees real r f n :=
  ⟨(sims h .init).1, fun _ _ => (sims h .init).2.sees.symm⟩

/-- **C22**: the files reported as written are exactly those that the command has made and that are there at the end. -/
theorem c22_written {real : Str → Option (Node C)} {os : List (Op C)} {bs : List Bool} {r : Own C} (h : Runs real {} os bs r) (f : Str) :
    f ∈ reportWrites (run real {} os).1 ↔ ∃ c, r.files f = some c := by
  have ha := (sims h .init).2
  have e : f ∈ reportWrites (run real {} os).1 ↔ f ∈ (run real {} os).1.writes ∧ f ∉ (run real {} os).1.unlinks := by
    unfold reportWrites
    rw [List.mem_filter, decide_eq_true_eq]
  rw [e]
  constructor
  · rintro ⟨hw, hu⟩
    cases e : r.files f with
    | none => exact absurd (ha.writes f hw hu) (findMap_none.mp ((ha.files_none f).mp e))
    | some c => exact ⟨c, rfl⟩
  · rintro ⟨c, hc⟩
    refine ha.inv.logged f (Classical.byContradiction fun hn => ?_)
    rw [(ha.files_none f).mpr (findMap_none.mpr hn)] at hc
    cases hc

/-- **C22**: when the files have been moved into the tree, it has at each path the file that the command has made there, with its last
content, and else what was there before. -/
theorem c22_contents {real : Str → Option (Node C)} {os : List (Op C)} {bs : List Bool} {r : Own C} (h : Runs real {} os bs r) (f : Str) :
    settle (run real {} os).1 (run real {} os).1.maps real f = match r.files f with
      | some c => some (.file c)
      | none => real f := by
  have ha := (sims h .init).2
  rw [settle_spec _ _ ha.inv.names, ha.files f]
  cases e : findMap f (run real {} os).1.maps with
  | none => rfl
  | some t =>
    obtain ⟨c, hc⟩ := ha.present e
    simp [hc]

/-- **C22**: the directories that are left over (tup reports them as an error) are those that the command has made and not removed. -/
theorem c22_directories {real : Str → Option (Node C)} {os : List (Op C)} {bs : List Bool} {r : Own C} (h : Runs real {} os bs r) (f : Str) :
    f ∈ (run real {} os).1.dirs ↔ r.dirs f := ((sims h .init).2.dirs f).symm

/-- **C22**, temporary files: a file that the command made and then removed, or gave another name, is reported neither as written nor as
read if the command does not use that name again. -/
theorem c22_temporary {real : Str → Option (Node C)} {os : List (Op C)} {bs : List Bool} {r r' : Own C} (h : Runs real {} os bs r) {f : Str}
    {o : Op C} (ho : o = .unlink f ∨ ∃ g, g ≠ f ∧ o = .rename f g) (hf : ∃ c, Sees real r f (some (.file c))) (hm : r.made f)
    (hd : Does real r o true r') (ps : List (Op C)) (hp : ∀ p ∈ ps, f ∉ p.names) :
    f ∉ reportWrites (run real {} (os ++ o :: ps)).1 ∧ f ∉ reportReads (run real {} (os ++ o :: ps)).1 := by
  have ha := (sims h .init).2
  obtain ⟨c, hc⟩ := hf
  obtain ⟨hfd, t, ht, htc⟩ := ha.mapped hc hm
  rw [run_append, run]
  generalize (run real {} os).1 = s at ha ht htc hfd
  simp only
  have hs := same_run real ps (step real s o).1 hp
  generalize (run real (step real s o).1 ps).1 = q at hs
  have key : f ∈ (step real s o).1.unlinks ∨ (f ∉ (step real s o).1.writes ∧ f ∉ (step real s o).1.reads) := by
    rcases ho with e | ⟨g, ne, e⟩
    · subst e
      left
      rw [step, ha.sees.mp hc]
      simp only [unlinkOp, attr_maps, ht]
      simp [recUnlink]
    · subst e
      right
      rcases renamed hd rfl ne with ⟨n, h3, hnd, hi⟩ | h2
      · have hb : ¬ below f g = true := fun hb => hi ((below_iff f g).mp hb)
        have hfd2 : f ∉ (attr (attr s f) g).dirs := by rw [attr_dirs, attr_dirs]; exact hfd
        have hfind : findMap f (dropTarget g (attr (attr s f) g)).maps = some t := by
          have hi2 : Inv (attr (attr s f) g) := (ha.inv.attr f).attr g
          unfold dropTarget
          split
          · show findMap f (delMap g (attr (attr s f) g).maps) = some t
            rw [findMap_delMap hi2.names, if_neg (fun e => ne e.symm), attr_maps, attr_maps, ht]
          · rw [attr_maps, attr_maps, ht]
        have hr : (step real s (.rename f g)).1 = (renameOp f g (attr (attr s f) g)).1 := by
          rw [step, if_neg (fun e => ne e.symm), ha.sees.mp hc, ha.sees.mp h3]
          match n, hnd with
          | none, _ => simp only [if_neg hb]
          | some (.file _), _ => simp only [if_neg hb]
          | some .dir, hnd => exact absurd rfl hnd
        rw [hr, renameOp, if_neg hfd2]
        simp only [hfind, recRename]
        have gone : ∀ l : List Str, f ∉ l.map fun w => if w = f then g else w := by
          intro l hx
          obtain ⟨y, _, e⟩ := List.mem_map.mp hx
          split at e
          · exact ne e
          · rename_i hy; exact hy e
        exact ⟨gone _, gone _⟩
      · exact absurd ((ha.dirs f).mp h2) hfd
  unfold reportWrites reportReads
  rw [List.mem_filter, List.mem_filter, hs.writes, hs.reads, decide_eq_true_eq, hs.unlinks]
  rcases key with k | ⟨k1, k2⟩
  · exact ⟨fun hx => hx.2 k, fun hx => hx.2 k⟩
  · exact ⟨fun hx => k1 hx.1, fun hx => k2 hx.1⟩

/-- **C22**, reading: a path that the command does nothing with but look at it is reported as read exactly if the command looked at it. -/
theorem c22_read (real : Str → Option (Node C)) (os : List (Op C)) (f : Str) (h : ∀ o ∈ os, o = .read f ∨ f ∉ o.names) :
    f ∈ reportReads (run real {} os).1 ↔ .read f ∈ os := by
  obtain ⟨h1, h2⟩ := only_read real os ({} : Fs C) h (by simp) (by simp)
  unfold reportReads
  rw [List.mem_filter, decide_eq_true_eq, h1]
  simp [h2]

/-- **C22**, no output is missed: whatever the command does, short of opening a file of the tree for writing, every file that would be moved
into the tree is reported as written (and then accepted or refused as C23 says). -/
theorem c22_none_missed (real : Str → Option (Node C)) (os : List (Op C)) (h : ∀ f c, Op.put f c ∈ os → ∀ c', real f ≠ some (.file c')) (f : Str)
    (hf : settle (run real {} os).1 (run real {} os).1.maps real f ≠ real f) : f ∈ reportWrites (run real {} os).1 := by
  have hi := inv_run os (Agree.init (C := C)).inv h
  rw [settle_spec _ _ hi.names] at hf
  have hm : f ∈ (run real {} os).1.maps.map Prod.fst := by
    refine Classical.byContradiction fun hn => ?_
    rw [findMap_none.mpr hn] at hf
    exact hf rfl
  obtain ⟨h1, h2⟩ := hi.logged f hm
  unfold reportWrites
  rw [List.mem_filter, decide_eq_true_eq]
  exact ⟨h1, h2⟩

/-! ### Where tup leaves the private file system -/

def str (s : String) : Str := s.toList
def tree : Str → Option (Node Nat) := fun f => if f = str "/s" then some (.file 1) else if f = str "/" then some .dir else none

/-- A directory that the command has made gets another name, with a file in it: the file stays under the old name, where it is reported
as written, and it is not found under the new one. -/
theorem c22_rename_directory :
    let s := (run tree {} [.mkdir (str "/a"), .put (str "/a/x") 7, .rename (str "/a") (str "/b")]).1
    lookup tree s (str "/b/x") = none ∧ lookup tree s (str "/a") = none ∧ reportWrites s = [str "/a/x", str "/a/x"] := by decide +kernel

/-- A file that the command has not made is to get the name of one that it has made: that fails, but the file that the command has made is
lost, and is reported as written. -/
theorem c22_failed_rename :
    let r := run tree {} [.put (str "/x") 7, .rename (str "/s") (str "/x")]
    r.2 = [true, false] ∧ lookup tree r.1 (str "/x") = none ∧ str "/x" ∈ reportWrites r.1 := by decide +kernel

/-- Truncating a file that the command has not made fails, but it is reported as written. -/
theorem c22_failed_truncate :
    let r := run tree {} [.truncate (str "/s") 0]
    r.2 = [false] ∧ lookup tree r.1 (str "/s") = some (.file 1) ∧ str "/s" ∈ reportWrites r.1 := by decide +kernel

/-- Opening such a file for writing fails; then the command no longer finds it. -/
theorem c22_failed_open :
    let r := run tree {} [.put (str "/s") 0]
    r.2 = [false] ∧ lookup tree r.1 (str "/s") = none ∧ str "/s" ∈ reportWrites r.1 := by decide +kernel

/-- A directory replaces an empty one: it has to be removed twice. -/
theorem c22_replace_directory :
    let r := run tree {} [.mkdir (str "/a"), .mkdir (str "/b"), .rename (str "/a") (str "/b"), .rmdir (str "/b"), .read (str "/b")]
    r.2 = [true, true, true, true, true] ∧ r.1.dirs = [str "/b"] := by decide +kernel

/-! ### Examples -/

/-- `ar`-like: an output is begun, a temporary file is written and takes its place; another temporary file is removed. -/
def sample : List (Op Nat) :=
  [.read (str "/s"), .put (str "/o") 0, .put (str "/t") 5, .rename (str "/t") (str "/o"), .put (str "/u") 6, .unlink (str "/u")]

theorem sample_runs : ∃ r, Runs tree {} sample [true, true, true, true, true, true] r ∧ r.files (str "/o") = some 5 ∧ r.files (str "/t") = none ∧
    r.files (str "/u") = none := by
  have n1 : ∀ {r : Own Nat} {f : Str}, ¬ r.dirs f → r.files f = none → tree f = none → Sees tree r f none :=
    fun hd hf ht => ht ▸ Sees.other hd hf
  let r1 : Own Nat := Own.set {} (str "/o") (some 0)
  let r2 : Own Nat := r1.set (str "/t") (some 5)
  let r3 : Own Nat := (r2.set (str "/t") none).set (str "/o") (some 5)
  let r4 : Own Nat := r3.set (str "/u") (some 6)
  let r5 : Own Nat := r4.set (str "/u") none
  refine ⟨r5, ?_, by decide, by decide, by decide⟩
  refine .cons _ _ _ {} _ _ _ trivial (.read _ (some (.file 1)) (Sees.other (fun h => h) rfl)) ?_
  refine .cons _ _ _ r1 _ _ _ (fun ⟨c, h⟩ => by cases sees_unique h (n1 (fun h => h) rfl (by decide))) (.create _ _ (n1 (fun h => h) rfl (by decide))) ?_
  refine .cons _ _ _ r2 _ _ _ (fun ⟨c, h⟩ => by cases sees_unique h (n1 (fun h => h) (by decide) (by decide)))
    (.create _ _ (n1 (fun h => h) (by decide) (by decide))) ?_
  refine .cons _ _ _ r3 _ _ _ (fun _ => ⟨fun hn _ => absurd (Or.inr (by decide)) hn, fun h => h.elim⟩)
    (.rename _ _ 5 (some (.file 0)) (by decide) (.file 5 (fun h => h) (by decide)) (Or.inr (by decide)) (.file 0 (fun h => h) (by decide))
      (by decide) (by rw [← below_iff]; decide)) ?_
  refine .cons _ _ _ r4 _ _ _ (fun ⟨c, h⟩ => by cases sees_unique h (n1 (fun h => h) (by decide) (by decide)))
    (.create _ _ (n1 (fun h => h) (by decide) (by decide))) ?_
  refine .cons _ _ _ r5 _ _ _ trivial (.unlink _ 6 (.file 6 (fun h => h) (by decide)) (Or.inr (by decide))) ?_
  exact .nil _

example : reportWrites (run tree {} sample).1 = [str "/o", str "/o", str "/o", str "/o"] ∧ str "/s" ∈ reportReads (run tree {} sample).1 ∧
    str "/t" ∉ reportReads (run tree {} sample).1 ∧ str "/u" ∉ reportReads (run tree {} sample).1 := by decide +kernel

/-- `c22_read` and `c22_none_missed` apply to it. -/
example : (∀ o ∈ sample, o = .read (str "/s") ∨ str "/s" ∉ o.names) ∧
    settle (run tree {} sample).1 (run tree {} sample).1.maps tree (str "/o") = some (.file 5) := by
  refine ⟨?_, by decide +kernel⟩
  intro o ho
  simp only [sample, List.mem_cons, List.not_mem_nil, or_false] at ho
  rcases ho with h | h | h | h | h | h <;> subst h <;> first | exact Or.inl rfl | exact Or.inr (by decide)

/-- `c22_temporary` for the file `/u`, which is made and removed, whatever is done afterwards to other files. -/
example (ps : List (Op Nat)) (hp : ∀ p ∈ ps, str "/u" ∉ p.names) :
    str "/u" ∉ reportWrites (run tree {} ([.put (str "/u") 6] ++ .unlink (str "/u") :: ps)).1 ∧
    str "/u" ∉ reportReads (run tree {} ([.put (str "/u") 6] ++ .unlink (str "/u") :: ps)).1 := by
  have h0 : Sees tree ({} : Own Nat) (str "/u") none := by
    have h : Sees tree ({} : Own Nat) (str "/u") (tree (str "/u")) := Sees.other (fun h => h) rfl
    have e : tree (str "/u") = none := by decide
    rwa [e] at h
  let r1 : Own Nat := Own.set {} (str "/u") (some 6)
  have hs : Sees tree r1 (str "/u") (some (.file 6)) := .file 6 (fun h => h) (by decide)
  have hr : Runs tree {} [.put (str "/u") 6] [true] r1 :=
    .cons _ _ _ r1 _ _ _ (fun ⟨c, h⟩ => by cases sees_unique h h0) (.create _ _ h0) (.nil _)
  exact c22_temporary (r := r1) (r' := r1.set (str "/u") none) hr
    (.inl rfl) ⟨6, hs⟩ (Or.inr (by decide)) (.unlink _ 6 hs (Or.inr (by decide))) ps hp

end Tup.Fuse
