import Verif.Restore.Lemmas

/-
C52: the previous outputs of a failing command with ^o are put back; after success the new ones are kept.
C59: an output counts as unchanged exactly if its mode and content are the same as before.
-/

namespace Tup.Restore

open Tup (Str)

/-! ### Specification -/

/-- The flags that there are. -/
def Known (flags : List Char) : Prop := ∀ c ∈ flags, c ∈ ['c', 'o', 'b', 'j', 't', 's']

/-- The tree without the outputs. -/
noncomputable def without (os : List Output) (tree : Str → Option File) : Str → Option File := fun p =>
  open Classical in if ∃ o ∈ os, o.plain ∧ o.path = p then none else tree p

/-- Every system call that tup makes for the outputs succeeds, and the command is started. -/
structure Smooth (e : Env) (os : List Output) : Prop where
  opens : e.opens = true
  starts : e.starts = true
  dirs : ∀ o ∈ os, e.opensDir o.id = true
  moves : ∀ o ∈ os, e.moves o.id = true
  restores : ∀ o ∈ os, e.restores o.id = true
  unlinks : ∀ o ∈ os, e.unlinks o.id = true

/-- The file is as it was. -/
def Unchanged (old new : Option File) : Prop := ∃ f g, old = some f ∧ new = some g ∧ f.mode = g.mode ∧ f.content = g.content

/-! ### Lemmas -/

theorem compareFlag_iff (flags : List Char) (b : Bool) : compareFlag flags = some b ↔ Known flags ∧ (b = true ↔ 'o' ∈ flags) := by
  induction flags generalizing b with
  | nil => cases b <;> simp [compareFlag, Known]
  | cons c cs ih =>
    rw [compareFlag]
    have hk : Known (c :: cs) ↔ c ∈ ['c', 'o', 'b', 'j', 't', 's'] ∧ Known cs := by simp [Known]
    rw [hk]
    split
    · rename_i h
      rw [ih]
      have h1 : c ∈ ['c', 'o', 'b', 'j', 't', 's'] := by grind
      have h2 : c ≠ 'o' := by
        intro e
        rw [e] at h
        revert h
        decide
      simp only [h1, true_and, List.mem_cons, Ne.symm h2, false_or]
    · rename_i h
      split
      · rename_i h2
        subst h2
        have h1 : 'o' ∈ ['c', 'o', 'b', 'j', 't', 's'] := by decide
        simp only [h1, true_and, List.mem_cons, true_or, iff_true]
        rw [Option.map_eq_some_iff]
        constructor
        · rintro ⟨a, ha, e⟩
          exact ⟨((ih a).mp ha).1, e.symm⟩
        · rintro ⟨hk, e⟩
          subst e
          by_cases ho : 'o' ∈ cs
          · exact ⟨true, (ih true).mpr ⟨hk, by simp [ho]⟩, rfl⟩
          · exact ⟨false, (ih false).mpr ⟨hk, by simp [ho]⟩, rfl⟩
      · rename_i h2
        refine ⟨(fun h => by cases h), fun hx => ?_⟩
        have := hx.1.1
        grind

theorem moveOne_true {e : Env} {o : Output} (h1 : e.opensDir o.id = true) (h2 : e.moves o.id = true) (d : Disk) : (moveOne e o d).2 = true := by
  unfold moveOne
  split
  · rfl
  · rw [if_neg (by simp [h1])]
    split
    · rfl
    · rw [if_neg (by simp [h2])]

theorem unlinkOne_true {e : Env} {o : Output} (h1 : e.opensDir o.id = true) (h2 : e.unlinks o.id = true) (d : Disk) : (unlinkOne e o d).2 = true := by
  unfold unlinkOne
  split
  · rfl
  · simp only
    rw [if_neg (by simp [h1])]
    split
    · rfl
    · rw [if_neg (by simp [h2])]

theorem without_of {os : List Output} {t : Str → Option File} {t' : Str → Option File} (h1 : ∀ o ∈ os, o.plain → t' o.path = none)
    (h2 : ∀ p, (∀ o ∈ os, o.plain → o.path ≠ p) → t' p = t p) : t' = without os t := by
  funext p
  unfold without
  split
  · rename_i h
    obtain ⟨o, ho, hp, e⟩ := h
    rw [← e]
    exact h1 o ho hp
  · rename_i h
    exact h2 p fun o ho hp e => h ⟨o, ho, hp, e⟩

theorem update_compare {e : Env} {flags : List Char} {os : List Output} {d : Disk} (hs : Smooth e os) (hk : Known flags) (ho : 'o' ∈ flags) :
    update e flags os d = process e true os (each (moveOne e) os d).1 ∧ (each (moveOne e) os d).2 = true := by
  have hc : compareFlag flags = some true := (compareFlag_iff flags true).mpr ⟨hk, by simp [ho]⟩
  have ht : (each (moveOne e) os d).2 = true := each_true fun o ho d => moveOne_true (hs.dirs o ho) (hs.moves o ho) d
  refine ⟨?_, ht⟩
  rw [update, hc]
  simp only
  rw [if_neg (by simp [hs.opens])]
  simp only [if_true]
  rw [if_neg (by simp [ht]), if_neg (by simp [hs.starts])]

theorem update_plain {e : Env} {flags : List Char} {os : List Output} {d : Disk} (hs : Smooth e os) (hk : Known flags) (ho : 'o' ∉ flags) :
    update e flags os d = process e false os (each (unlinkOne e) os d).1 ∧ (each (unlinkOne e) os d).2 = true := by
  have hc : compareFlag flags = some false := (compareFlag_iff flags false).mpr ⟨hk, by simp [ho]⟩
  have ht : (each (unlinkOne e) os d).2 = true := each_true fun o ho d => unlinkOne_true (hs.dirs o ho) (hs.unlinks o ho) d
  refine ⟨?_, ht⟩
  rw [update, hc]
  simp only
  rw [if_neg (by simp [hs.opens])]
  simp only [Bool.false_eq_true, if_false]
  rw [if_neg (by simp [ht]), if_neg (by simp [hs.starts])]

/-! ### C52 -/

/-- **C52**: when a command with ^o has run and failed, every previous output is back with what it was, and with its time stamp recorded;
everything else is as the command left it.  The command itself ran without the previous outputs. -/
theorem c52_restored {e : Env} {flags : List Char} {os : List Output} {d : Disk} (hs : Smooth e os) (hd : Distinct os) (hk : Known flags) (ho : 'o' ∈ flags)
    (hb : ∀ o ∈ os, d.backup o.id = none) (hf : (e.command (without os d.tree)).ok = false) :
    (update e flags os d).2 = false ∧
    (∀ o ∈ os, o.plain → ∀ f, d.tree o.path = some f → (update e flags os d).1.tree o.path = some f ∧ (update e flags os d).1.mtime o.id = f.mtime) ∧
    (∀ p, (∀ o ∈ os, o.plain → o.path = p → d.tree p = none) → (update e flags os d).1.tree p = (e.command (without os d.tree)).tree p) := by
  obtain ⟨hu, ht⟩ := update_compare (d := d) hs hk ho
  obtain ⟨ha, hb2, hc, hm, hsk⟩ := move_spec hd ht
  have hw : (each (moveOne e) os d).1.tree = without os d.tree := without_of (fun o ho hp => (ha o ho hp).1) hb2
  rw [hu, process]
  simp only [hw, hf, Bool.not_false, if_true]
  have hr : ∀ d : Disk, (each (restoreOne e) os d).2 = true := fun d => each_true fun o ho d => restoreOne_true (hs.restores o ho) d
  generalize hq : ({ (each (moveOne e) os d).1 with tree := (e.command (without os d.tree)).tree, mtime := (e.command (without os d.tree)).mtime } : Disk) = q
  have hqt : q.tree = (e.command (without os d.tree)).tree := by rw [← hq]
  have hqb : q.backup = (each (moveOne e) os d).1.backup := by rw [← hq]
  obtain ⟨ra, rb, rc, rs⟩ := restore_spec hd (hr q)
  refine ⟨trivial, fun o ho hp f hf => ?_, fun p hp => ?_⟩
  · obtain ⟨r1, _, r3⟩ := ra o ho hp.1
    have : (each (restoreOne e) os q).1.tree o.path = some f := by rw [r1, hqb, (ha o ho hp).2, hf]; rfl
    exact ⟨this, r3 f this⟩
  · by_cases hx : ∃ o ∈ os, o.virtual = false ∧ o.path = p
    · obtain ⟨o, ho, hv, e1⟩ := hx
      rw [← e1, (ra o ho hv).1, hqt, hqb]
      have hn : (each (moveOne e) os d).1.backup o.id = none := by
        by_cases hpl : o.plain
        · rw [(ha o ho hpl).2, e1, hp o ho hpl e1, hb o ho]; rfl
        · rw [hc o.id, hb o ho]
          intro x hx hxp e2
          have : x = o := by
            have key : ∀ l : List Output, (l.map Output.id).Nodup → x ∈ l → o ∈ l → x = o := by
              intro l
              induction l with
              | nil => intro _ h; cases h
              | cons y l ih =>
                intro nd h1 h2
                rw [List.map_cons, List.nodup_cons] at nd
                rcases List.mem_cons.mp h1 with h1 | h1 <;> rcases List.mem_cons.mp h2 with h2 | h2
                · rw [h1, h2]
                · exact absurd (List.mem_map.mpr ⟨o, h2, by rw [← h1, e2]⟩) nd.1
                · exact absurd (List.mem_map.mpr ⟨x, h1, by rw [← h2, e2]⟩) nd.1
                · exact ih nd.2 h1 h2
            exact key os hd.1 hx ho
          exact hpl (this ▸ hxp)
      rw [hn]; rfl
    · rw [rb p (fun o ho hv e1 => hx ⟨o, ho, hv, e1⟩), hqt]

/-- **C52**: when it has succeeded, the tree is as the command left it. -/
theorem c52_kept {e : Env} {flags : List Char} {os : List Output} {d : Disk} (hs : Smooth e os) (hd : Distinct os) (hk : Known flags) (ho : 'o' ∈ flags)
    (hf : (e.command (without os d.tree)).ok = true) :
    (update e flags os d).1.tree = (e.command (without os d.tree)).tree ∧ (update e flags os d).2 = e.reports := by
  obtain ⟨hu, ht⟩ := update_compare (d := d) hs hk ho
  obtain ⟨ha, hb2, hc, hm, hsk⟩ := move_spec hd ht
  have hw : (each (moveOne e) os d).1.tree = without os d.tree := without_of (fun o ho hp => (ha o ho hp).1) hb2
  rw [hu, process]
  simp only [hw, hf, Bool.not_true, Bool.false_eq_true, if_true, if_false]
  by_cases hr : (e.command (without os d.tree)).removed = true
  · simp only [hr, if_true]
    exact ⟨unskip_spec.2.1, by rw [unskip_spec.1]; rfl⟩
  · simp only [hr, Bool.false_eq_true, if_false]
    obtain ⟨c1, c2, _, _⟩ := check_spec (d := { (each (moveOne e) os d).1 with tree := (e.command (without os d.tree)).tree, mtime := (e.command (without os d.tree)).mtime }) hd
    exact ⟨c2, by rw [c1]; rfl⟩

/-- **C52**, commands without ^o: they too run without their previous outputs, and the tree stays as they left it. -/
theorem c52_without_flag {e : Env} {flags : List Char} {os : List Output} {d : Disk} (hs : Smooth e os) (hd : Distinct os) (hk : Known flags) (ho : 'o' ∉ flags) :
    (update e flags os d).1.tree = (e.command (without os d.tree)).tree ∧ (update e flags os d).2 = ((e.command (without os d.tree)).ok && e.reports) := by
  obtain ⟨hu, ht⟩ := update_plain (d := d) hs hk ho
  obtain ⟨ha, hb2, hc⟩ := unlink_spec hd ht
  have hw : (each (unlinkOne e) os d).1.tree = without os d.tree := without_of (fun o ho hp => (ha o ho hp).1) hb2
  rw [hu, process]
  simp only [hw, Bool.false_eq_true, if_false]
  exact ⟨trivial, trivial⟩

/-- **C52**: if the flags are not known or the command's directory can't be opened, nothing is touched. -/
theorem c52_untouched {e : Env} {flags : List Char} (os : List Output) (d : Disk) (h : ¬ Known flags ∨ e.opens = false) : update e flags os d = (d, false) := by
  rw [update]
  split
  · rfl
  · rename_i b hb
    rcases h with h | h
    · exact absurd ((compareFlag_iff flags b).mp hb).1 h
    · rw [if_pos (by simp [h])]

/-! ### C59 -/

/-- **C59**: after a command with ^o has succeeded, an output still counts as unchanged exactly if it did so before, no important link has been
removed, and there is a file with the same mode and content as before. -/
theorem c59_unchanged {e : Env} {flags : List Char} {os : List Output} {d : Disk} (hs : Smooth e os) (hd : Distinct os) (hk : Known flags) (ho : 'o' ∈ flags)
    (hb : ∀ o ∈ os, d.backup o.id = none) (hf : (e.command (without os d.tree)).ok = true) {o : Output} (hm : o ∈ os) (hp : o.plain)
    (hl : ∀ f, d.tree o.path = some f → f.isLink = true → f.content.length ≤ 4096) :
    (update e flags os d).1.skip o.id = true ↔
      d.skip o.id = true ∧ (e.command (without os d.tree)).removed = false ∧ Unchanged (d.tree o.path) ((e.command (without os d.tree)).tree o.path) := by
  obtain ⟨hu, ht⟩ := update_compare (d := d) hs hk ho
  obtain ⟨ha, hb2, hc, hmt, hsk⟩ := move_spec hd ht
  have hw : (each (moveOne e) os d).1.tree = without os d.tree := without_of (fun o ho hp => (ha o ho hp).1) hb2
  rw [hu, process]
  simp only [hw, hf, Bool.not_true, Bool.false_eq_true, if_true, if_false]
  by_cases hr : (e.command (without os d.tree)).removed = true
  · simp only [hr, if_true]
    rw [unskip_spec.2.2]
    have : o.id ∈ os.map Output.id := List.mem_map.mpr ⟨o, hm, rfl⟩
    simp [this]
  · simp only [hr, Bool.false_eq_true, if_false]
    generalize hq : ({ (each (moveOne e) os d).1 with tree := (e.command (without os d.tree)).tree, mtime := (e.command (without os d.tree)).mtime } : Disk) = q
    have hqt : q.tree = (e.command (without os d.tree)).tree := by rw [← hq]
    have hqb : q.backup = (each (moveOne e) os d).1.backup := by rw [← hq]
    have hqs : q.skip = d.skip := by rw [← hq]; exact hsk
    obtain ⟨_, _, _, c4⟩ := check_spec (d := q) hd
    have hbk : q.backup o.id = d.tree o.path := by rw [hqb, (ha o hm hp).2, hb o hm, Option.or_none]
    rw [c4 o hm hp.1, hqs, hbk, hqt, Bool.and_eq_true, comparePaths_iff _ _ hl]
    have : (e.command (without os d.tree)).removed = false := by simpa using hr
    simp only [Unchanged, true_and]

/-- **C59**, without ^o no output counts as unchanged. -/
theorem c59_without_flag {e : Env} {flags : List Char} {os : List Output} {d : Disk} (hs : Smooth e os) (hd : Distinct os) (hk : Known flags) (ho : 'o' ∉ flags)
    {o : Output} (hm : o ∈ os) (hp : o.plain) : (update e flags os d).1.skip o.id = false := by
  obtain ⟨hu, ht⟩ := update_plain (d := d) hs hk ho
  obtain ⟨ha, hb2, hc⟩ := unlink_spec hd ht
  rw [hu, process]
  simp only [Bool.false_eq_true, if_false]
  exact (ha o hm hp).2

/-! ### Where C52 fails, and examples -/

def oA : Output := { id := 5, path := "a".toList }
def oB : Output := { id := 6, path := "b".toList }
def fA : File := { mode := 33188, content := [1, 2], mtime := 10 }
def fB : File := { mode := 33188, content := [3], mtime := 11 }
def disk : Disk :=
  { tree := fun p => if p = "a".toList then some fA else if p = "b".toList then some fB else none
    backup := fun _ => none, mtime := fun _ => 0, skip := fun _ => true }

/-- A command that writes a new `a` and, as in `ok`, succeeds or fails. -/
def cmd (ok : Bool) (t : Str → Option File) : Left :=
  { tree := fun p => if p = "a".toList then some { fA with content := [9], mtime := 20 } else t p, mtime := fun _ => 20, ok := ok, removed := false }

/-- The command can't be started: its previous outputs stay in .tup/tmp, where the next start of tup removes them. -/
theorem c52_not_started :
    let r := update { command := cmd true, starts := false } ['o'] [oA, oB] disk
    r.2 = false ∧ r.1.tree "a".toList = none ∧ r.1.backup 5 = some fA ∧ (restart r.1).backup 5 = none := by decide +kernel

/-- An output that can't be moved away: those before it stay in .tup/tmp. -/
theorem c52_half_moved :
    let r := update { command := cmd true, moves := fun i => i != 6 } ['o'] [oA, oB] disk
    r.2 = false ∧ r.1.tree "a".toList = none ∧ r.1.tree "b".toList = some fB ∧ r.1.backup 5 = some fA := by decide +kernel

/-- An output that can't be put back: those after it are not put back either. -/
theorem c52_half_restored :
    let r := update { command := cmd false, restores := fun i => i != 5 } ['o'] [oA, oB] disk
    r.2 = false ∧ r.1.tree "b".toList = none ∧ r.1.backup 6 = some fB := by decide +kernel

/-- An output that was not there before stays when the command fails. -/
theorem c52_new_output :
    let r := update { command := cmd false } ['o'] [oA, oB] { disk with tree := fun p => if p = "b".toList then some fB else none }
    r.2 = false ∧ (r.1.tree "a".toList).isSome = true ∧ r.1.tree "b".toList = some fB := by decide +kernel

/-- An old file in .tup/tmp, which tup removes when it starts, would be taken for the previous output. -/
theorem c52_old_backup :
    let r := update { command := cmd false } ['o'] [oB] { disk with tree := fun _ => none, backup := fun i => if i = 6 then some fB else none }
    r.1.tree "b".toList = some fB := by decide +kernel

theorem sample_smooth (ok : Bool) : Smooth { command := cmd ok } [oA, oB] :=
  ⟨rfl, rfl, fun _ _ => rfl, fun _ _ => rfl, fun _ _ => rfl, fun _ _ => rfl⟩

theorem sample_distinct : Distinct [oA, oB] := ⟨by decide, by decide⟩

example : (update { command := cmd false } ['o'] [oA, oB] disk).1.tree oA.path = some fA :=
  ((c52_restored (sample_smooth false) sample_distinct (by unfold Known; decide) (by decide) (fun _ _ => rfl) rfl).2.1 oA (by decide) ⟨rfl, rfl⟩ fA (by decide)).1

example : (update { command := cmd true } ['b', 'o'] [oA, oB] disk).1.tree oA.path = some { fA with content := [9], mtime := 20 } := by
  rw [(c52_kept (d := disk) (flags := ['b', 'o']) (sample_smooth true) sample_distinct (by unfold Known; decide) (by decide) rfl).1]
  rfl

/-- `a` has changed. -/
example : (update { command := cmd true } ['o'] [oA, oB] disk).1.skip 5 = false ∧
    (update { command := fun t => { cmd true t with tree := disk.tree } } ['o'] [oA, oB] disk).1.skip 5 = true := by decide +kernel

end Tup.Restore
