import Verif.PreInit.Lemmas

/-!
C113: how the process is started that runs the commands.
-/

namespace Tup.PreInit

/-- `server_pre_init` as it is called, init.c:53; `use_namespacing` is 1, master_fork.c:78. -/
def begin (w : World) : Result := preInit w 0 true

/-- A system on which every call succeeds. -/
def fine : Attempt := ⟨true, true, true, true, true, true, true, true, true, true, true, true⟩

/-- All calls succeed but those that set up the user namespace, which may fail. -/
def Plumbing (a : Attempt) : Prop :=
  a.pgid = true ∧ a.sockets = true ∧ a.fork = true ∧ a.told = true ∧ a.close = true ∧ a.read = true ∧ a.wait = true ∧ a.thread = true

/-- At most two processes are forked. -/
theorem c113_tries (w : World) : (begin w).children.length ≤ 2 := by
  have h := (preInit_false w 1).1
  rcases preInit_true w 0 with ⟨_, e⟩ | ⟨c, _, e, _⟩ | ⟨_, _, e⟩ | ⟨m, _, e, _⟩ <;> simp only [begin, e, List.length_cons, List.length_nil]
  · omega
  · omega
  · simp only [Nat.zero_add]; omega
  · omega

/-- If it succeeds, exactly one process runs commands: the last one forked, and a process forked before it has exited. It uses namespaces only if it
was not told to do without, and full dependencies are only tracked with namespaces. -/
theorem c113_ok (w : World) (h : (begin w).ok = true) :
    ∃ m, ((begin w).children = [.loop m] ∨ (begin w).children = [.exits, .loop m]) ∧ (w.noNs = true → m = false) ∧ (w.full = true → m = true) := by
  rcases preInit_true w 0 with ⟨e, _⟩ | ⟨c, e, _⟩ | ⟨hn, e1, e2⟩ | ⟨m, _, e, h1, h2⟩
  · rw [begin, e] at h; cases h
  · rw [begin, e] at h; cases h
  · rw [begin, e1] at h
    obtain ⟨h1, h2⟩ := (preInit_false w 1).2.1 h
    refine ⟨false, Or.inr ?_, fun _ => rfl, fun hf => by rw [h2] at hf; cases hf⟩
    rw [begin, e2, h1]
  · exact ⟨m, Or.inl e, h1, h2⟩

example : (begin ⟨false, false, true, fun _ => fine⟩).ok = true := by simp [begin, preInit, child, fine]

/-- It succeeds only if all calls of the last attempt did; before a second attempt the first process was waited for. -/
theorem c113_calls (w : World) (h : (begin w).ok = true) :
    ((begin w).children.length = 1 ∧ Needed (w.attempt 0)) ∨ ((begin w).children.length = 2 ∧ (w.attempt 0).wait = true ∧ Needed (w.attempt 1)) := by
  have key : ∀ n, (preInit w n false).ok = true → Needed (w.attempt n) := by
    intro n
    rw [preInit]
    dsimp only
    split
    · simp
    · rename_i h1
      split
      · simp
      · rename_i h2
        rw [dif_neg (by simp)]
        split
        · simp
        · rename_i h3
          split
          · simp
          · rename_i h4
            intro _
            exact needed_of_one (Classical.not_not.1 h3) h1 h2 h4
  have hk := key 1
  have hl := (preInit_false w 1).2.1
  revert h
  rw [begin, preInit]
  dsimp only
  split
  · simp
  · rename_i h1
    split
    · simp
    · rename_i h2
      split
      · split
        · simp
        · rename_i hw
          intro h
          right
          refine ⟨?_, by simpa using hw, hk h⟩
          rw [(hl h).1]
          rfl
      · split
        · simp
        · rename_i h3
          split
          · simp
          · rename_i h4
            intro _
            left
            exact ⟨rfl, needed_of_one (Classical.not_not.1 h3) h1 h2 h4⟩

example : begin ⟨false, false, false, fun n => { fine with deny := n != 0 }⟩ = ⟨true, [.exits, .loop false]⟩ := by simp [begin, preInit, child, fine]

/-- If it fails, no process is left that runs commands, unless the parent could not close its end, read from it or start its thread. -/
theorem c113_none (w : World) (h : (begin w).ok = false) (m : Bool) (hm : .loop m ∈ (begin w).children) :
    ∃ n, n < 2 ∧ ((w.attempt n).close = false ∨ (w.attempt n).read = false ∨ (w.attempt n).thread = false) := by
  rcases preInit_true w 0 with ⟨_, e⟩ | ⟨c, _, e, hc⟩ | ⟨_, e1, e2⟩ | ⟨_, e, _⟩
  · rw [begin, e] at hm; cases hm
  · rw [begin, e] at hm
    exact ⟨0, by omega, hc m (List.mem_singleton.1 hm).symm⟩
  · rw [begin, e1] at h
    rw [begin, e2] at hm
    rcases List.mem_cons.1 hm with hm | hm
    · cases hm
    · exact ⟨1, by omega, (preInit_false w 1).2.2 h m hm⟩
  · rw [begin, e] at h; cases h

example : (begin ⟨false, false, false, fun _ => { fine with thread := false }⟩) = ⟨false, [.loop true]⟩ := by simp [begin, preInit, child, fine]

/-- Where a user namespace can be set up, or for root, it is the first attempt that succeeds, with namespaces, whether full dependencies are tracked or not. -/
theorem c113_works (w : World) (hp : Plumbing (w.attempt 0)) (hv : w.noNs = false)
    (hn : w.privileged = true ∨ ((w.attempt 0).unshare = true ∧ (w.attempt 0).deny = true ∧ (w.attempt 0).uid = true ∧ (w.attempt 0).gid = true)) :
    begin w = ⟨true, [.loop true]⟩ := by
  obtain ⟨h1, h2, h3, h4, h5, h6, h7, h8⟩ := hp
  rcases hn with hn | ⟨n1, n2, n3, n4⟩
  · simp [begin, preInit, child, h1, h2, h3, h4, h5, h6, h8, hv, hn]
  · simp [begin, preInit, child, h1, h2, h3, h4, h5, h6, h8, hv, n1, n2, n3, n4]

example : Plumbing fine := by simp [Plumbing, fine]

/-- Where setgroups cannot be denied, as with apparmor, there is a second attempt without namespaces. It succeeds just if full dependencies are not tracked. -/
theorem c113_again (w : World) (hp : Plumbing (w.attempt 0)) (hq : Plumbing (w.attempt 1)) (hv : w.noNs = false) (hr : w.privileged = false)
    (hu : (w.attempt 0).unshare = true) (hd : (w.attempt 0).deny = false) :
    begin w = if w.full then ⟨false, [.exits, .returns]⟩ else ⟨true, [.exits, .loop false]⟩ := by
  obtain ⟨h1, h2, h3, h4, h5, h6, h7, h8⟩ := hp
  obtain ⟨g1, g2, g3, g4, g5, g6, g7, g8⟩ := hq
  cases hf : w.full <;> simp [begin, preInit, child, h1, h2, h3, h4, h5, h6, h7, g1, g2, g3, g4, g5, g6, g8, hv, hr, hu, hd, hf]

example : Plumbing { fine with deny := false } := by simp [Plumbing, fine]

/-- Where there are no user namespaces, or with TUP_NO_NAMESPACING, the first attempt does without. It succeeds just if full dependencies are not tracked; with
the variable that holds for root as well. -/
theorem c113_without (w : World) (hp : Plumbing (w.attempt 0)) (h : w.noNs = true ∨ (w.privileged = false ∧ (w.attempt 0).unshare = false)) :
    begin w = if w.full then ⟨false, [.returns]⟩ else ⟨true, [.loop false]⟩ := by
  obtain ⟨h1, h2, h3, h4, h5, h6, h7, h8⟩ := hp
  rcases h with h | ⟨h, h'⟩
  · cases hf : w.full <;> simp [begin, preInit, child, h1, h2, h3, h4, h5, h6, h8, h, hf]
  · cases hn : w.noNs <;> cases hf : w.full <;> simp [begin, preInit, child, h1, h2, h3, h4, h5, h6, h8, h, h', hf, hn]

/-- Where the ids cannot be mapped it fails, and so do both processes: the forked one returns with the error into the program that called this, as the parent does. -/
theorem c113_both (w : World) (hp : Plumbing (w.attempt 0)) (hv : w.noNs = false) (hr : w.privileged = false)
    (hu : (w.attempt 0).unshare = true) (hd : (w.attempt 0).deny = true) (hi : (w.attempt 0).uid = false ∨ (w.attempt 0).gid = false) :
    begin w = ⟨false, [.returns]⟩ := by
  obtain ⟨h1, h2, h3, h4, h5, h6, h7, h8⟩ := hp
  rcases hi with hi | hi <;> simp [begin, preInit, child, h1, h2, h3, h4, h5, h6, hv, hr, hu, hd, hi]

/-- Neither end of the socket is descriptor 0, over which /dev/null is put later. -/
theorem c113_socket (used : Nat → Bool) (x : Numbers used) : x.a ≠ 0 ∧ x.b ≠ 0 := by
  have key : ∀ n, used n = false → n ≠ x.tmp → n ≠ 0 := by
    intro n h1 h2 h0
    have := x.tmpLowest n h1
    omega
  exact ⟨key _ x.aFree.1 x.aFree.2, key _ x.bFree.1 x.bFree.2.1⟩

/-- tup was started with its standard input closed. -/
example : Numbers (fun n => n == 1 || n == 2) :=
  { tmp := 0, tmpFree := by decide, tmpLowest := fun n _ => Nat.zero_le n, a := 3, b := 4, aFree := by decide, bFree := by decide }

end Tup.PreInit
