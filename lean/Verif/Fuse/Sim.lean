import Verif.Fuse.Agree

/- Lemmas for C22: the simulation. -/

namespace Tup.Fuse

open Tup (Str)

variable {C : Type}

theorem attr_lookup {real : Str → Option (Node C)} (s : Fs C) (f x : Str) : lookup real (attr s f) x = lookup real s x := by
  unfold lookup
  rw [attr_maps, attr_dirs, attr_tmp]

/-- A file that the command has made has a mapping. -/
theorem Agree.mapped {s : Fs C} {r : Own C} (h : Agree s r) {real : Str → Option (Node C)} {f : Str} {c : C}
    (hs : Sees real r f (some (.file c))) (hm : r.made f) : f ∉ s.dirs ∧ ∃ t, findMap f s.maps = some t ∧ s.tmp t = some c := by
  have hl := h.sees.mp hs
  unfold lookup at hl
  split at hl
  · cases hl
  · rename_i hd
    refine ⟨hd, ?_⟩
    split at hl
    · rename_i t e
      split at hl
      · rename_i c' e2
        injection hl with hl
        injection hl with hl
        exact ⟨t, e, hl ▸ e2⟩
      · cases hl
    · rename_i e
      rcases (h.made f).mp hm with hm | hm
      · exact absurd hm hd
      · exact absurd e hm

/-- A file that the command has not made has none. -/
theorem Agree.unmapped {s : Fs C} {r : Own C} (h : Agree s r) {f : Str} (hm : ¬ r.made f) : f ∉ s.dirs ∧ findMap f s.maps = none := by
  rw [h.made, not_or] at hm
  exact ⟨hm.1, Classical.not_not.mp hm.2⟩

theorem sim {real : Str → Option (Node C)} {s : Fs C} {r : Own C} (h : Agree s r) {o : Op C} {b : Bool} {r' : Own C} (hu : Usual real r o)
    (hd : Does real r o b r') : (step real s o).2 = b ∧ Agree (step real s o).1 r' := by
  cases hd with
  | read f n hs =>
    rw [step, h.sees.mp hs]
    exact ⟨rfl, h.attr f⟩
  | create f c hs =>
    have hl := h.sees.mp hs
    rw [step, hl]
    refine ⟨rfl, ?_⟩
    obtain ⟨h1, h2⟩ := lookup_none hl
    have hn : findMap f s.maps = none := by
      rcases h2 with ⟨t, e, e2⟩ | h2
      · obtain ⟨c', hc'⟩ := h.present e
        rw [e2] at hc'; cases hc'
      · exact h2.1
    exact (h.attr f).create c (by rw [attr_maps]; exact hn) (by rw [attr_dirs]; exact h1)
  | change f c c₀ hs hm =>
    obtain ⟨_, t, ht, _⟩ := h.mapped hs hm
    rw [step, h.sees.mp hs]
    simp only [openWrite, attr_maps, ht]
    exact ⟨trivial, (h.attr f).change c (by rw [attr_maps]; exact ht)⟩
  | noPut f c n hs hn =>
    rw [step, h.sees.mp hs]
    cases n with
    | dir => exact ⟨rfl, h.attr f⟩
    | file c' =>
      rcases hn with hn | hn
      · cases hn
      · exact absurd (hu ⟨c', hs⟩) hn
  | unlink f c hs hm =>
    obtain ⟨_, t, ht, _⟩ := h.mapped hs hm
    rw [step, h.sees.mp hs]
    simp only [unlinkOp, attr_maps, ht]
    have := (h.attr f).unlink (f := f) (t := t) (by rw [attr_maps]; exact ht)
    rw [attr_maps] at this
    exact ⟨trivial, this⟩
  | noUnlink f n hs hn =>
    rw [step, h.sees.mp hs]
    cases n with
    | none => exact ⟨rfl, h.attr f⟩
    | some n =>
      cases n with
      | dir => exact ⟨rfl, h.attr f⟩
      | file c' =>
        rcases hn with hn | hn
        · exact absurd ⟨c', rfl⟩ hn
        · simp only [unlinkOp, attr_maps, (h.unmapped hn).2]
          exact ⟨trivial, h.attr f⟩
  | rename f g c n ne hs hm hg hnd hi =>
    obtain ⟨hfd, t, ht, hc⟩ := h.mapped hs hm
    have hgd : g ∉ s.dirs := by
      intro hx
      have := h.sees.mp hg
      rw [lookup, if_pos hx] at this
      exact hnd this.symm
    have hb : ¬ below f g = true := fun hb => hi ((below_iff f g).mp hb)
    rw [step, if_neg ne, h.sees.mp hs, h.sees.mp hg]
    have key : (renameOp f g (attr (attr s f) g)).2 = true ∧ Agree (renameOp f g (attr (attr s f) g)).1 ((r.set f none).set g (some c)) := by
      have h2 := (h.attr f).attr g
      have hfd2 : f ∉ (attr (attr s f) g).dirs := by rw [attr_dirs, attr_dirs]; exact hfd
      have hm2 : (attr (attr s f) g).maps = s.maps := by rw [attr_maps, attr_maps]
      have ht2 : (attr (attr s f) g).tmp = s.tmp := by rw [attr_tmp, attr_tmp]
      have hd2 : (attr (attr s f) g).dirs = s.dirs := by rw [attr_dirs, attr_dirs]
      generalize attr (attr s f) g = q at h2 hfd2 hm2 ht2 hd2
      have hn := h2.drop g
      have hfind : findMap f (dropTarget g q).maps = some t ∧ (dropTarget g q).tmp t = some c := by
        unfold dropTarget
        split
        · rename_i u e
          refine ⟨?_, ?_⟩
          · show findMap f (delMap g q.maps) = some t
            rw [findMap_delMap h2.inv.names, if_neg ne, hm2, ht]
          · show (if t = u then none else q.tmp t) = some c
            rw [if_neg (tmp_ne h2.inv (hm2 ▸ ht) e ne), ht2, hc]
        · exact ⟨by rw [hm2, ht], by rw [ht2, hc]⟩
      have hdd : g ∉ (dropTarget g q).dirs := by
        unfold dropTarget
        split
        · show g ∉ q.dirs; rw [hd2]; exact hgd
        · rw [hd2]; exact hgd
      rw [renameOp, if_neg hfd2]
      simp only [hfind.1]
      refine ⟨trivial, ?_⟩
      have e : (r.set f none).set g (some c) = ((r.set g none).set f none).set g (some c) := by
        unfold Own.set
        congr 1
        funext x
        simp only
        split
        · rfl
        · rename_i hx; simp
      rw [e]
      exact hn.rename hfind.1 hfind.2 hdd
    cases n with
    | none => simp only [if_neg hb]; exact key
    | some n =>
      cases n with
      | dir => exact absurd rfl hnd
      | file c' => simp only [if_neg hb]; exact key
  | renameDir f g ne hf hnf hg hi =>
    have hfd := (h.dirs f).mp hf
    have hs : lookup real s f = some .dir := by rw [lookup, if_pos hfd]
    have hgl := h.sees.mp hg
    obtain ⟨hgd, hgm⟩ := lookup_none hgl
    have hgn : findMap g s.maps = none := by
      rcases hgm with ⟨t, e, e2⟩ | h2
      · obtain ⟨c', hc'⟩ := h.present e
        rw [e2] at hc'; cases hc'
      · exact h2.1
    have hb : ¬ below f g = true := fun hb => hi ((below_iff f g).mp hb)
    rw [step, if_neg ne, hs, hgl]
    simp only [if_neg hb]
    have h2 := (h.attr f).attr g
    have hm2 : (attr (attr s f) g).maps = s.maps := by rw [attr_maps, attr_maps]
    have hd2 : (attr (attr s f) g).dirs = s.dirs := by rw [attr_dirs, attr_dirs]
    generalize attr (attr s f) g = q at h2 hm2 hd2
    rw [renameOp, if_pos (by rw [hd2]; exact hfd)]
    have hfd' : f ∈ q.dirs := by rw [hd2]; exact hfd
    have hgd' : g ∉ q.dirs := by rw [hd2]; exact hgd
    refine ⟨rfl, ⟨h2.inv.names, h2.inv.tmps, h2.inv.next, h2.inv.present, h2.inv.logged⟩, h2.files, fun x => ?_, renameDir_nodup h2.once hfd' hgd', fun x hx => ?_, h2.writes⟩
    · show (if x = g then True else if x = f then False else r.dirs x) ↔ x ∈ renameDir f g q.dirs
      rw [mem_renameDir h2.once hfd']
      by_cases e : x = g
      · simp [e]
      · rw [if_neg e]
        by_cases e2 : x = f
        · simp [e2, ne]
        · simp [e, e2, h2.dirs]
    · rcases (mem_renameDir h2.once hfd').mp hx with hx | hx
      · rw [hx]; show findMap g q.maps = none; rw [hm2]; exact hgn
      · exact h2.apart x hx.1
  | renameSame f n hs =>
    rw [step, if_pos rfl, h.sees.mp hs]
    exact ⟨rfl, h.attr f⟩
  | noRename f g n m ne hs hg hn =>
    have ha := (h.attr f).attr g
    rw [step, if_neg ne, h.sees.mp hs, h.sees.mp hg]
    have key : ¬ r.made f → (∃ n, Sees real r f (some n)) →
        (renameOp f g (attr (attr s f) g)).2 = false ∧ Agree (renameOp f g (attr (attr s f) g)).1 r := by
      intro hm hx
      have hgf := (hu ne).1 hm hx
      have hgn := (h.files_none g).mp hgf
      obtain ⟨hfd, hfn⟩ := h.unmapped hm
      have hm2 : (attr (attr s f) g).maps = s.maps := by rw [attr_maps, attr_maps]
      have hd2 : (attr (attr s f) g).dirs = s.dirs := by rw [attr_dirs, attr_dirs]
      generalize attr (attr s f) g = q at ha hm2 hd2
      have : dropTarget g q = q := by unfold dropTarget; rw [hm2, hgn]
      rw [renameOp, if_neg (by rw [hd2]; exact hfd), this]
      simp only [hm2, hfn]
      exact ⟨trivial, ha⟩
    have key2 : ¬ r.made f ∨ Inside f g → (∃ n, Sees real r f (some n)) →
        (if below f g = true then (attr (attr s f) g, false) else renameOp f g (attr (attr s f) g)).2 = false ∧
        Agree (if below f g = true then (attr (attr s f) g, false) else renameOp f g (attr (attr s f) g)).1 r := by
      intro hx hy
      by_cases hb : below f g = true
      · rw [if_pos hb]; exact ⟨rfl, ha⟩
      · rw [if_neg hb]
        rcases hx with hx | hx
        · exact key hx hy
        · exact absurd ((below_iff f g).mpr hx) hb
    cases n with
    | none => exact ⟨rfl, ha⟩
    | some n =>
      have hex : ∃ n, Sees real r f (some n) := ⟨n, hs⟩
      cases n with
      | dir =>
        cases m with
        | none =>
          simp only
          refine key2 ?_ hex
          rcases hn with hn | hn | hn | ⟨_, c, hn⟩ | ⟨⟨c, hn⟩, _⟩
          · cases hn
          · exact Or.inl hn
          · exact Or.inr hn
          · cases hn
          · cases hn
        | some m =>
          cases m with
          | dir =>
            simp only
            refine key2 ?_ hex
            rcases hn with hn | hn | hn | ⟨_, c, hn⟩ | ⟨⟨c, hn⟩, _⟩
            · cases hn
            · exact Or.inl hn
            · exact Or.inr hn
            · cases hn
            · cases hn
          | file c => exact ⟨rfl, ha⟩
      | file c =>
        cases m with
        | none =>
          simp only
          refine key2 ?_ hex
          rcases hn with hn | hn | hn | ⟨hn, _⟩ | ⟨_, hn⟩
          · cases hn
          · exact Or.inl hn
          · exact Or.inr hn
          · cases hn
          · cases hn
        | some m =>
          cases m with
          | dir => exact ⟨rfl, ha⟩
          | file c' =>
            simp only
            refine key2 ?_ hex
            rcases hn with hn | hn | hn | ⟨hn, _⟩ | ⟨_, hn⟩
            · cases hn
            · exact Or.inl hn
            · exact Or.inr hn
            · cases hn
            · cases hn
  | mkdir f hs =>
    have hl := h.sees.mp hs
    obtain ⟨h1, h2⟩ := lookup_none hl
    have hn : findMap f s.maps = none := by
      rcases h2 with ⟨t, e, e2⟩ | h2
      · obtain ⟨c', hc'⟩ := h.present e
        rw [e2] at hc'; cases hc'
      · exact h2.1
    rw [step, hl]
    have ha := h.attr f
    refine ⟨rfl, ⟨ha.inv.names, ha.inv.tmps, ha.inv.next, ha.inv.present, ha.inv.logged⟩, ha.files, fun x => ?_, ?_, fun x hx => ?_, ha.writes⟩
    · show (if x = f then True else r.dirs x) ↔ x ∈ s.dirs ++ [f]
      rw [List.mem_append, List.mem_singleton, ← h.dirs]
      by_cases e : x = f
      · simp [e]
      · simp [e]
    · show (s.dirs ++ [f]).Nodup
      rw [List.nodup_append]
      refine ⟨h.once, by simp, fun a ha b hb => ?_⟩
      rw [List.mem_singleton] at hb
      exact fun e => h1 (hb ▸ e ▸ ha)
    · have hx : x ∈ s.dirs ++ [f] := hx
      show findMap x (attr s f).maps = none
      rw [attr_maps]
      rw [List.mem_append, List.mem_singleton] at hx
      rcases hx with hx | hx
      · exact h.apart x hx
      · rw [hx]; exact hn
  | noMkdir f n hs =>
    rw [step, h.sees.mp hs]
    exact ⟨rfl, h.attr f⟩
  | rmdir f hf hnf =>
    have hfd := (h.dirs f).mp hf
    have hs : lookup real s f = some .dir := by rw [lookup, if_pos hfd]
    have ha := h.attr f
    have hd2 : (attr s f).dirs = s.dirs := attr_dirs s f
    rw [step, hs]
    simp only
    generalize attr s f = q at ha hd2
    rw [rmdirOp, if_neg (fun hx => hnf ((ha.full f).mpr hx)), if_pos (by rw [hd2]; exact hfd)]
    refine ⟨rfl, ⟨ha.inv.names, ha.inv.tmps, ha.inv.next, ha.inv.present, ha.inv.logged⟩, ha.files, fun x => ?_, ?_, fun x hx => ?_, ha.writes⟩
    · show (if x = f then False else r.dirs x) ↔ x ∈ q.dirs.erase f
      rw [ha.once.mem_erase_iff, ha.dirs]
      by_cases e : x = f
      · simp [e]
      · simp [e]
    · exact ha.once.erase f
    · exact ha.apart x (List.mem_of_mem_erase hx)
  | noRmdir f hn =>
    have ha := h.attr f
    have hd2 : (attr s f).dirs = s.dirs := attr_dirs s f
    rw [step]
    split
    · generalize attr s f = q at ha hd2
      rw [rmdirOp]
      by_cases hx : r.full f
      · rw [if_pos ((ha.full f).mp hx)]; exact ⟨rfl, ha⟩
      · rw [if_neg (fun hy => hx ((ha.full f).mpr hy))]
        rcases hn with hn | hn
        · rw [if_neg (fun hy => hn ((ha.dirs f).mpr hy))]; exact ⟨rfl, ha⟩
        · exact absurd hn hx
    · exact ⟨rfl, ha⟩
  | truncate f c c₀ hs hm =>
    obtain ⟨_, t, ht, _⟩ := h.mapped hs hm
    have ha := h.attr f
    have hm2 := attr_maps s f
    rw [step, h.sees.mp hs]
    simp only
    generalize attr s f = q at ha hm2
    have e : findMap f (recWrite f q).maps = some t := by show findMap f q.maps = some t; rw [hm2]; exact ht
    rw [truncateOp]
    simp only [e]
    exact ⟨trivial, ha.change c (by rw [hm2]; exact ht)⟩
  | noTruncate f c n hs hn =>
    rw [step, h.sees.mp hs]
    cases n with
    | none => exact ⟨rfl, h.attr f⟩
    | some n =>
      cases n with
      | dir => exact ⟨rfl, h.attr f⟩
      | file c' =>
        rcases hn with hn | hn
        · exact absurd ⟨c', rfl⟩ hn
        · exact absurd (hu ⟨c', hs⟩) hn

theorem sims {real : Str → Option (Node C)} {r : Own C} {os : List (Op C)} {bs : List Bool} {r' : Own C} (hr : Runs real r os bs r') :
    ∀ {s : Fs C}, Agree s r → (run real s os).2 = bs ∧ Agree (run real s os).1 r' := by
  induction hr with
  | nil r => exact fun h => ⟨rfl, h⟩
  | cons r o b r₁ os bs r₂ hu hd _ ih =>
    intro s h
    obtain ⟨h1, h2⟩ := sim h hu hd
    obtain ⟨h3, h4⟩ := ih h2
    rw [run]
    exact ⟨by simp only [h1, h3], h4⟩

end Tup.Fuse
