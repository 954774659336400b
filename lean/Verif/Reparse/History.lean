import Verif.Reparse.Accept

/-! Lemmas for C74: what holds in all histories, and orders. -/

namespace Tup.Reparse

theorem inv_init : Inv init := by
  refine ⟨?_, fun x _ => ⟨[], rfl, fun b => by simp [init]⟩⟩
  intro x h
  generalize hy : x = y at h
  cases h with
  | one h => cases h
  | cons h _ => cases h

theorem inv_edit {s : St} (h : Inv s) (d : Dir) (f : Str → Bool) (p : Prog) : Inv (edit s d f p) := by
  refine ⟨h.1, ?_⟩
  intro x hx
  have hmono : ∀ y, Reach s y → Reach (edit s d f p) y := by
    intro y hy
    induction hy with
    | flag hy => exact .flag (List.mem_cons_of_mem _ hy)
    | link _ hl ih => exact .link ih hl
  have hd : Reach (edit s d f p) d := .flag List.mem_cons_self
  obtain ⟨lk, e1, e2⟩ := h.2 x (fun hr => hx (hmono x hr))
  have hxd : x ≠ d := by rintro rfl; exact hx hd
  refine ⟨lk, ?_, e2⟩
  show trace (set s.src d f) s.rules x (set s.prog d p x) [] = some (s.rules x, lk)
  rw [set_other _ _ hxd]
  refine trace_congr (set_other _ _ hxd) _ _ e1 (fun b hb => ⟨rfl, set_other _ _ ?_⟩)
  rintro rfl
  exact hx (.link hd ((e2 b).2 hb))

theorem hist_inv {s : St} (h : Hist s) : Inv s := by
  induction h with
  | init => exact inv_init
  | edit _ ih => exact inv_edit ih _ _ _
  | update _ hv hu ha ih => exact ⟨ha, fun x _ => (update_local ih hv hu ha).1 x⟩

theorem update_keeps {s s' : St} {order : List Dir} (h : update s order = .ok s') : s'.src = s.src ∧ s'.prog = s.prog := by
  unfold update at h
  split at h
  · simp only [Res.ok.injEq] at h
    rw [← h]
    exact ⟨rfl, rfl⟩
  · cases h

theorem meaning_same {s u : St} (h1 : s.src = u.src) (h2 : s.prog = u.prog) : ∀ n d, meaning s n d = meaning u n d := by
  intro n
  induction n with
  | zero => intro d; rfl
  | succ n ih =>
    intro d
    rw [meaning, meaning, h1, h2, show meaning s n = meaning u n from funext ih]

theorem reach_none {s : St} (h : s.flags = []) (d : Dir) : ¬ Reach s d := by
  intro hr
  induction hr with
  | flag hd => rw [h] at hd; cases hd
  | link _ _ ih => exact ih

theorem nodup_same (l : List Dir) : ∃ m : List Dir, m.Nodup ∧ ∀ x, x ∈ m ↔ x ∈ l := by
  induction l with
  | nil => exact ⟨[], by simp, by simp⟩
  | cons a l ih =>
    obtain ⟨m, h1, h2⟩ := ih
    by_cases ha : a ∈ m
    · refine ⟨m, h1, fun x => ?_⟩
      rw [h2, List.mem_cons]
      refine ⟨.inr, ?_⟩
      rintro (rfl | h)
      · exact (h2 x).1 ha
      · exact h
    · exact ⟨a :: m, List.nodup_cons.2 ⟨ha, h1⟩, fun x => by rw [List.mem_cons, List.mem_cons, h2]⟩

theorem path_before {s : St} {order : List Dir} (hv : Valid s order) {a b : Dir} (h : Path s.links a b) : a ∈ order → ∀ l r, order = l ++ b :: r → a ∈ l := by
  induction h with
  | one h => exact hv.sorted _ _ h
  | @cons a c b h _ ih =>
    intro ha l r e
    have hc : c ∈ order := (hv.mem c).2 (.link ((hv.mem a).1 ha) h)
    obtain ⟨l1, l2, rfl⟩ := List.append_of_mem (ih hc l r e)
    have := hv.sorted a c h ha l1 (l2 ++ b :: r) (by rw [e]; simp)
    exact List.mem_append_left _ this

end Tup.Reparse
