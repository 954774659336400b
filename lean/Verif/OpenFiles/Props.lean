import Verif.OpenFiles.Sim

/-! C84: the files that a command opens behave like those of a private file system, and the tree is left alone. -/

namespace Tup.OpenFiles

open Tup (Str)
open Tup.Fuse (findMap)

/-- Whatever a command does in the usual way, it gets the answers of a private file system, each name stands for the same file with the same content, and .tup/tmp has the files that have a name, no others. -/
theorem c84_private {c : Cfg} {real : Str → Option File} {os : List Op} {rs : List Res} {r : Own} (h : Runs c (Own.start real) os rs r) :
    (run c (start real) os).2 = rs ∧ (∀ f, present (run c (start real) os).1 f = (r.at f).isSome) ∧
      (∀ f t, r.name f = some t → findMap f (run c (start real) os).1.maps = some t ∧ (run c (start real) os).1.data t = r.data t) ∧
      (run c (start real) os).1.real = r.real ∧ ∀ t, (run c (start real) os).1.linked t = true ↔ ∃ f, r.name f = some t := by
  obtain ⟨k, e⟩ := runs_rel h (inv_start c real) (rel_start real)
  exact ⟨e, k.present, fun f t hf => ⟨(k.name f).trans hf, by rw [k.data]⟩, k.real, fun t => ⟨k.lk' t, fun ⟨f, hf⟩ => (k.lk f t hf).1⟩⟩

/-- Whatever a command does, in the usual way or not, with libfuse 3: the files of the tree are not changed, unless they are hidden, excluded, or have `.fuse_hidden` in their name. -/
theorem c84_tree {c : Cfg} (h3 : c.fuse3 = true) (real : Str → Option File) (os : List Op) {g : Str} (h1 : c.free g = false) (h2 : c.freeOpen g = false)
    (h4 : c.hid g = false) : (run c (start real) os).1.real g = real g :=
  run_real h3 (by simp [Cfg.open, h1, h2, h4]) (inv_start c real)

/-- Whatever a command does: tup counts the files that are open, keeps a descriptor for at most as many as its limit, waits after the command as long as one of them is open, goes on when none is, and its check for a negative count never fails. -/
theorem c84_wait (c : Cfg) (real : Str → Option File) (os : List Op) :
    let s := (run c (start real) os).1
    let n := openAfter os (run c (start real) os).2
    0 ≤ n ∧ n = s.handles.length ∧ (s.handles.filter fun x => x.2.fd.isSome).length ≤ c.max ∧ (wait s = .waits ↔ 0 < n) ∧ (wait s = .done ↔ n = 0) := by
  intro s n
  have i : Inv c s := (inv_start c real).run
  have hn : s.count = n := by
    have : s.count = 0 + n := run_count c os (start real)
    omega
  have hl := i.count
  refine ⟨by omega, by omega, i.fds, ?_, ?_⟩
  · unfold wait; rw [hn]
    split
    · simp_all
    · split
      · simp; omega
      · simp; omega
  · unfold wait; rw [hn]
    split
    · simp; omega
    · split
      · omega
      · simp; omega

/-- What a file contains after a write: the bytes that were written, zeros between the old end and the write, and what it contained before elsewhere. -/
theorem c84_pwrite (b x : List Nat) (off i : Nat) (hx : x ≠ []) :
    (pwrite b off x)[i]? = if off ≤ i ∧ i < off + x.length then x[i - off]? else if i < b.length then b[i]? else if i < off then some 0 else none := by
  unfold pwrite
  rw [if_neg hx]
  have l1 : (ftruncate b off).length = off := by
    unfold ftruncate
    simp only [List.length_append, List.length_take, List.length_replicate]; omega
  rw [List.take_of_length_le (by omega)]
  simp only [List.append_eq]
  rw [List.append_assoc, List.getElem?_append, l1]
  by_cases h : i < off
  · rw [if_pos h, if_neg (by omega), getElem?_ftruncate, if_pos h]
    by_cases h' : i < b.length
    · simp [h']
    · simp [h', h]
  · rw [if_neg h, List.getElem?_append]
    by_cases h' : i - off < x.length
    · rw [if_pos h', if_pos ⟨by omega, by omega⟩]
    · rw [if_neg h', if_neg (by omega), List.getElem?_drop]
      have : off + x.length + (i - off - x.length) = i := by omega
      rw [this]
      by_cases h2 : i < b.length
      · rw [if_pos h2]
      · rw [if_neg h2, if_neg h]; simp; omega

/-- What a file contains after it is cut or extended. -/
theorem c84_ftruncate (b : List Nat) (n i : Nat) : (ftruncate b n)[i]? = if i < n then (if i < b.length then b[i]? else some 0) else none := by
  rw [getElem?_ftruncate]
  by_cases h : i < n <;> by_cases h' : i < b.length <;> simp [h, h']

/-- What is written can be read back. -/
theorem c84_read_back (b x : List Nat) (off : Nat) : pread (pwrite b off x) off x.length = x := by
  by_cases hx : x = []
  · subst hx; simp [pread]
  apply List.ext_getElem?
  intro i
  unfold pread
  rw [List.getElem?_take, List.getElem?_drop]
  by_cases h : i < x.length
  · rw [if_pos h, c84_pwrite b x off _ hx, if_pos ⟨by omega, by omega⟩]
    congr 1; omega
  · rw [if_neg h]; simp; omega

/-- A file system for the examples: `a` can be read and written, `x` is excluded. -/
def exReal : Str → Option File := fun f => if f = ['a'] then some ⟨[1, 2, 3], true, true, 0, 0⟩ else if f = ['x'] then some ⟨[7], true, true, 0, 0⟩ else none

def exCfg : Cfg := { max := 2, free := fun f => f = ['x'], freeOpen := fun f => f = ['x'], hid := fun f => f = ['h'] }

/-- A file is made, written, renamed and removed while it is open, and can still be read; the file of the tree cannot be touched; a third file is open late. -/
def exOps : List Op :=
  [.create ['o'] true true, .write 0 1 [5, 6], .open ['a'] false, .read 1 1 9, .chmod ['a'] true true, .rename ['o'] ['p'], .open ['p'] true, .read 2 0 9, .release 2,
   .unlink ['p'], .read 0 0 9, .open ['p'] false, .truncate ['x'] 0, .link ['a'] ['b'], .unlink ['a'], .release 0, .release 0]

def exRes : List Res :=
  [.opened 0, .ok, .opened 1, .bytes [2, 3], .fail, .ok, .opened 2, .bytes [0, 5, 6], .ok, .ok, .bytes [0, 5, 6], .fail, .ok, .fail, .fail, .ok, .fail]

example : (run exCfg (start exReal) exOps).2 = exRes := by decide

theorem exRuns : ∃ r, Runs exCfg (Own.start exReal) exOps exRes r := by
  refine ⟨_, .cons trivial <| .cons ?_ <| .cons ?_ <| .cons ?_ <| .cons trivial <| .cons ?_ <| .cons ?_ <| .cons ?_ <| .cons trivial <| .cons ?_ <| .cons ?_ <|
    .cons ?_ <| .cons trivial <| .cons trivial <| .cons ?_ <| .cons trivial <| .cons trivial <| .nil _⟩
  · intro x hx hl
    cases hx; cases hl
  · intro h; cases h
  · intro x hx hl
    cases hx; cases hl
  · intro _
    refine ⟨rfl, ?_, fun h => (by cases h), fun _ x hx => ?_⟩
    · intro i hi; cases hi
    · revert x; decide
  · intro _ h; cases h
  · intro x hx hl y hy
    cases hx; cases hy; rfl
  · refine ⟨?_, fun h => by cases h⟩
    intro i hi x hx
    cases hi
    revert x; decide
  · intro x hx hl
    cases hx; cases hl
  · intro h; cases h
  · refine ⟨?_, fun _ => rfl⟩
    intro i hi; cases hi

example : (run exCfg (start exReal) exOps).1.real ['a'] = exReal ['a'] := c84_tree rfl _ _ rfl rfl rfl

example : openAfter exOps exRes = 1 ∧ wait (run exCfg (start exReal) exOps).1 = .waits := by decide

/-- The limit: of four open files two have descriptors. -/
example : let s := (run exCfg (start exReal) [.create ['o'] true true, .open ['o'] true, .open ['a'] false, .open ['a'] false]).1
    s.handles.length = 4 ∧ (s.handles.filter fun x => x.2.fd.isSome).length = 2 := by decide

/-- What a file that is open late does not do: it cannot be read after it is removed. -/
theorem c84_late_removed : let c := { exCfg with max := 0 }
    let os : List Op := [.create ['o'] true true, .write 0 0 [5], .unlink ['o'], .read 0 0 9]
    (run c (start exReal) os).2 = [.opened 0, .ok, .ok, .fail] ∧ (run exCfg (start exReal) os).2 = [.opened 0, .ok, .ok, .bytes [5]] := by decide

/-- Nor can it be written after its permissions were taken, or if it was made without them. -/
theorem c84_late_readonly : let c := { exCfg with max := 0 }
    let os : List Op := [.create ['o'] true false, .write 0 0 [5]]
    (run c (start exReal) os).2 = [.opened 0, .fail] ∧ (run exCfg (start exReal) os).2 = [.opened 0, .ok] := by decide

/-- Nor can an excluded file be written. -/
theorem c84_late_excluded : let c := { exCfg with max := 0 }
    let os : List Op := [.open ['x'] true, .write 0 0 [5]]
    (run c (start exReal) os).2 = [.opened 0, .fail] ∧ (run exCfg (start exReal) os).2 = [.opened 0, .ok] := by decide

/-- Nor can it be read after another file took its name. -/
theorem c84_late_replaced : let c := { exCfg with max := 1 }
    let os : List Op := [.create ['o'] true true, .create ['p'] true true, .write 0 0 [5], .write 1 0 [6], .rename ['o'] ['p'], .read 1 0 9, .read 0 0 9]
    (run c (start exReal) os).2 = [.opened 0, .opened 1, .ok, .ok, .ok, .fail, .bytes [5]] ∧
      (run exCfg (start exReal) os).2 = [.opened 0, .opened 1, .ok, .ok, .ok, .bytes [6], .bytes [5]] := by decide

/-- Without libfuse 3 a command can write into a file of the tree. -/
theorem c84_fuse2_writes : let c := { exCfg with fuse3 := false }
    let os : List Op := [.open ['a'] true, .write 0 0 [9]]
    (run c (start exReal) os).2 = [.opened 0, .ok] ∧ (run c (start exReal) os).1.real ['a'] = some ⟨[9, 2, 3], true, true, 0, 0⟩ := by decide

/-- With libfuse 3 the attempt fails, and afterwards the command does not see the file any more. -/
theorem c84_open_hides : (run exCfg (start exReal) [.open ['a'] true, .open ['a'] false]).2 = [.fail, .fail] := by decide

/-- A file of the tree with `.fuse_hidden` in its name is removed for good, and a file that is given such a name is lost. -/
theorem c84_hidden_name : let real : Str → Option File := fun f => if f = ['h'] then some ⟨[1], true, true, 0, 0⟩ else none
    (run exCfg (start real) [.unlink ['h']]).1.real ['h'] = none ∧
      (run exCfg (start exReal) [.create ['o'] true true, .release 0, .rename ['o'] ['h'], .open ['h'] false, .open ['o'] false]).2 = [.opened 0, .ok, .ok, .fail, .fail] := by decide

/-- A file is excluded or not depending on the operation: an expression that begins with `^/` does not match the name that open uses. -/
theorem c84_exclusion_differs : let c := { exCfg with freeOpen := fun _ => false }
    (run c (start exReal) [.truncate ['x'] 0, .open ['x'] true]).2 = [.ok, .fail] := by decide

end Tup.OpenFiles
