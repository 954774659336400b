import Verif.OpenFiles.Steps

/-! Each usual operation does what it does in the private file system, for C84. -/

namespace Tup.OpenFiles

open Tup (Str)
open Tup.Fuse (findMap delMap renameMap)

theorem ne_real {r : Own} (t : Nat) : ∀ f, Obj.tmp t = .real f → (r.real f).isSome := fun _ e => Obj.noConfusion e

theorem is_real {r : Own} {f : Str} (h : (r.real f).isSome) : ∀ g, Obj.real f = .real g → (r.real g).isSome := fun _ e => by cases e; exact h

/-- Both do the same. -/
def Agrees (x : St × Res) (y : Own × Res) : Prop := Rel x.1 y.1 ∧ x.2 = y.2

theorem Rel.agree {s : St} {r : Own} (k : Rel s r) {a b : Res} (h : a = b) : Agrees (s, a) (r, b) := ⟨k, h⟩

theorem Rel.create {s : St} {r : Own} (k : Rel s r) (c : Cfg) (f : Str) (a w : Bool) : Agrees (step c s (.create f a w)) (r.does c (.create f a w)) := by
  simp only [step, Own.does, k.present]
  cases h : r.at f with
  | some o => exact k.agree rfl
  | none =>
    simp only [Option.isSome_none, Bool.false_eq_true, if_false]
    have := (k.make h ⟨[], a, w, 0, 0⟩).addHandle c (f := f) (o := .tmp r.made) (by simp [Own.at]) true
    unfold OpenFiles.create
    rw [k.next] at this ⊢
    exact this

theorem Rel.open {s : St} {r : Own} (k : Rel s r) (c : Cfg) (f : Str) (wr : Bool) (u : r.usual c (.open f wr)) : Agrees (step c s (.open f wr)) (r.does c (.open f wr)) := by
  simp only [step, Own.does, k.present]
  cases h : r.at f with
  | none => exact k.agree rfl
  | some o =>
    simp only [Option.isSome_some, if_true]
    rcases at_some h with ⟨t, h1, rfl⟩ | ⟨h1, rfl, h2⟩
    · unfold openOp
      rw [k.name, h1]
      simp only [Own.file, mine, openTmp, (k.lk f t h1).1, k.data, Bool.true_and, Bool.and_true]
      split
      · next o e =>
        split at e
        · next g => cases e; rw [if_pos g]; exact k.addHandle c h wr
        · cases e
      · next e =>
        split at e
        · cases e
        · next g => rw [if_neg g]; exact k.agree rfl
    · unfold openOp
      rw [k.name, h1]
      have fr : (c.fuse3 && wr && !c.freeOpen f) = false := by
        cases wr with
        | false => simp
        | true => rw [u rfl h]; simp
      simp only [fr, Bool.false_eq_true, if_false, Own.file, openReal, k.real]
      cases hx : r.real f with
      | none => rw [hx] at h2; cases h2
      | some x =>
        have : (!wr || (x.w && mine c.freeOpen (.real f))) = (!wr || x.w) := by
          cases wr with
          | false => rfl
          | true => simp [mine, u rfl h]
        simp only [this]
        by_cases g : (x.r && (!wr || x.w)) = true
        · simp only [if_pos g]; exact k.addHandle c h wr
        · simp only [if_neg g]; exact k.agree rfl

/-- What a late file is found under. -/
theorem HR.late {r : Own} {x : Handle} {o : OpenFile} (h : HR r x o) (l : o.late = true) : ∃ f, x.name = some f ∧ r.at f = some o.obj ∧ x.fd = none := by
  obtain ⟨_, b, d⟩ := h
  rw [l] at b
  cases e : x.name with
  | none => rw [e] at d; rw [d.1] at l; cases l
  | some f => rw [e] at d; exact ⟨f, rfl, d, b⟩

theorem HR.soon {r : Own} {x : Handle} {o : OpenFile} (h : HR r x o) (l : o.late = false) : x.fd = some o.obj := by
  have := h.2.1; rw [l] at this; exact this

/-- An open file exists. -/
theorem HR.exists {r : Own} {x : Handle} {o : OpenFile} (h : HR r x o) : ∃ y, r.file o.obj = some y := by
  obtain ⟨_, _, d⟩ := h
  split at d
  · obtain ⟨_, t, e, _⟩ := d; rw [e]; exact ⟨_, rfl⟩
  · rcases at_some d with ⟨t, _, e⟩ | ⟨_, e, g⟩
    · rw [e]; exact ⟨_, rfl⟩
    · rw [e]; exact ⟨_, (Option.some_get g).symm⟩

theorem Rel.read {s : St} {r : Own} (k : Rel s r) (c : Cfg) (h off n : Nat) (u : r.usual c (.read h off n)) : Agrees (step c s (.read h off n)) (r.does c (.read h off n)) := by
  simp only [step, Own.does, OpenFiles.read]
  rcases k.find h with ⟨e1, e2⟩ | ⟨x, o, e1, e2, hr⟩
  · rw [e1, e2]; exact k.agree rfl
  · rw [e1, e2]
    obtain ⟨y, hy⟩ := hr.exists
    cases l : o.late with
    | false => simp only [hr.soon l, k.file, hy]; exact k.agree rfl
    | true =>
      obtain ⟨f, n1, n2, n3⟩ := hr.late l
      have yr := u o e2 l y hy
      rcases at_some n2 with ⟨t, h1, h2⟩ | ⟨h1, h2, _⟩
      · rw [h2] at hy
        have hy' : r.data t = y := Option.some.inj hy
        simp only [n3, n1, k.name, h1, openTmp, (k.lk f t h1).1, k.data, hy', yr, h2]
        simp only [Bool.true_and, Bool.not_false, Bool.true_or, if_true, k.file, hy]
        exact k.agree rfl
      · rw [h2] at hy
        have hy' : r.real f = some y := hy
        simp only [n3, n1, k.name, h1, openReal, k.real, hy', yr, h2]
        simp only [Bool.true_and, Bool.not_false, Bool.true_or, if_true, k.file, hy]
        exact k.agree rfl

theorem HR.real {r : Own} {x : Handle} {o : OpenFile} (h : HR r x o) {f : Str} (e : o.obj = .real f) : (r.real f).isSome := by
  obtain ⟨y, hy⟩ := h.exists
  rw [e] at hy
  have : r.real f = some y := hy
  rw [this]; rfl

theorem Rel.write {s : St} {r : Own} (k : Rel s r) (c : Cfg) (h off : Nat) (b : List Nat) (u : r.usual c (.write h off b)) : Agrees (step c s (.write h off b)) (r.does c (.write h off b)) := by
  simp only [step, Own.does, write.eq_def]
  rcases k.find h with ⟨e1, e2⟩ | ⟨x, o, e1, e2, hr⟩
  · rw [e1, e2]; exact k.agree rfl
  · rw [e1, e2]
    obtain ⟨y, hy⟩ := hr.exists
    simp only [hy, hr.1]
    by_cases hw : o.wr = true
    · simp only [if_pos hw]
      have res : ∀ z : File, z = y → Agrees (s.set o.obj { z with bytes := pwrite z.bytes off b }, .ok) (r.set o.obj { y with bytes := pwrite y.bytes off b }, .ok) := by
        rintro z rfl
        exact ⟨k.set _ fun f e => hr.real e, rfl⟩
      cases l : o.late with
      | false => simp only [hr.soon l, k.file, hy]; exact res y rfl
      | true =>
        obtain ⟨f, n1, n2, n3⟩ := hr.late l
        obtain ⟨nr, yw⟩ := u o e2 l hw
        rcases at_some n2 with ⟨t, h1, h2⟩ | ⟨h1, h2, _⟩
        · have hy2 := hy
          rw [h2] at hy2
          have hy' : r.data t = y := Option.some.inj hy2
          simp only [n3, n1, k.name, h1, (k.lk f t h1).1, k.data, hy', yw y hy, Bool.true_and, if_true, k.file, hy2]
          rw [h2] at res
          rw [h2]
          have := res y rfl
          rw [yw y hy] at this
          exact this
        · exact absurd h2 (nr f)
    · simp only [if_neg hw]; exact k.agree rfl

theorem Rel.closed {s : St} {r : Own} (k : Rel s r) (c : Cfg) (i : Inv c s) (h : Nat) : Agrees (step c s (.release h)) (r.does c (.release h)) := by
  simp only [step, Own.does, OpenFiles.release]
  rcases k.find h with ⟨e1, e2⟩ | ⟨x, o, e1, e2, _⟩
  · rw [e1, e2]; exact k.agree rfl
  · rw [e1, e2]; exact ⟨k.release h i.nd (by rw [e1]; rfl), rfl⟩

theorem at_none {r : Own} {f : Str} (h : r.at f = none) : r.name f = none := by
  unfold Own.at at h
  split at h
  · cases h
  · assumption

theorem Rel.unlink {s : St} {r : Own} (k : Rel s r) (c : Cfg) (f : Str) (u : r.usual c (.unlink f)) : Agrees (step c s (.unlink f)) (r.does c (.unlink f)) := by
  obtain ⟨sp, hid⟩ := u
  simp only [step, Own.does, k.present]
  cases h : r.at f with
  | none => rw [at_none h]; exact k.agree rfl
  | some o =>
    simp only [Option.isSome_some, if_true, unlinkOp, hide, k.name]
    cases hn : r.name f with
    | none =>
      simp only [hid hn, Bool.false_eq_true, if_false]
      split <;> exact k.agree rfl
    | some t =>
      have kd := k.drop hn sp
      cases ho : isOpen s f with
      | true => exact ⟨kd, rfl⟩
      | false =>
        rw [moveName_idle (not_open ho)] at kd
        exact ⟨kd, rfl⟩

theorem no_real {s : St} {r : Own} (k : Rel s r) {g : Str} {t : Nat} (h : r.name g = some t) : ∀ x ∈ r.opened, x.2.obj ≠ .real g := by
  obtain ⟨l, _, e2, e3⟩ := k.hs
  intro x hx e
  rw [e2] at hx
  obtain ⟨y, hy, rfl⟩ := List.mem_map.mp hx
  obtain ⟨_, _, d⟩ := e3 y hy
  have e : y.2.2.obj = .real g := e
  split at d
  · obtain ⟨_, u, d2, _⟩ := d; rw [e] at d2; cases d2
  · next w _ =>
    rcases at_some d with ⟨u, _, h2⟩ | ⟨h1, h2, _⟩
    · rw [e] at h2; cases h2
    · rw [e] at h2; cases h2; rw [h] at h1; cases h1

theorem Rel.rename {s : St} {r : Own} (k : Rel s r) (c : Cfg) (f g : Str) (u : r.usual c (.rename f g)) : Agrees (step c s (.rename f g)) (r.does c (.rename f g)) := by
  simp only [step, Own.does, k.present]
  by_cases fg : f = g
  · simp only [if_pos fg]
    cases r.at f <;> exact k.agree rfl
  · simp only [if_neg fg]
    obtain ⟨hid, sp, foreign, real⟩ := u fg
    cases h : r.at f with
    | none => rw [at_none h]; exact k.agree rfl
    | some o =>
      simp only [Option.isSome_some, if_true]
      cases hf : r.name f with
      | none =>
        have hg := foreign hf
        simp only [renameOp, hide, renameMapped, k.name, hf, hg]
        split <;> exact k.agree rfl
      | some t =>
        cases hg : r.name g with
        | none =>
          have no := real hg
          have cl : isOpen s g = false := by
            cases ho : isOpen s g with
            | false => rfl
            | true =>
              obtain ⟨x, hx, e⟩ := k.isOpen_name ho
              rcases at_some e with ⟨v, h1, _⟩ | ⟨_, h2, _⟩
              · rw [hg] at h1; cases h1
              · exact absurd h2 (no x hx)
          simp only [renameOp, cl, renameMapped, k.name, hf, hg, hid, Bool.false_eq_true, if_false]
          exact ⟨k.move hf hg fg no, rfl⟩
        | some v =>
          have kd := k.drop hg sp
          have f1 : (r.forget g).name f = some t := by simp only [Own.forget, if_neg fg, hf]
          have g1 : (r.forget g).name g = none := by simp [Own.forget]
          have km := kd.move f1 g1 fg (no_real k hg)
          have nm := kd.name f
          rw [f1] at nm
          have nmg := kd.name g
          rw [g1] at nmg
          have eq : ({ r.forget g with name := fun x => if x = g then some t else if x = f then none else (r.forget g).name x } : Own) =
              { r with name := fun x => if x = g then some t else if x = f then none else r.name x } := by
            unfold Own.forget
            simp only [Own.mk.injEq, and_true]
            funext x
            by_cases e : x = g <;> simp [e]
          rw [eq] at km
          cases ho : isOpen s g with
          | true =>
            simp only [renameOp, ho, if_true, hide, k.name, hg, renameMapped, nm, nmg, hid, Bool.false_eq_true, if_false]
            exact ⟨km, rfl⟩
          | false =>
            rw [moveName_idle (not_open ho)] at km nm
            have nm : findMap f (OpenFiles.drop s g v).maps = some t := nm
            simp only [renameOp, ho, Bool.false_eq_true, if_false, k.name, hg, renameMapped, nm, hid]
            exact ⟨km, rfl⟩

theorem Rel.truncate {s : St} {r : Own} (k : Rel s r) (c : Cfg) (f : Str) (n : Nat) : Agrees (step c s (.truncate f n)) (r.does c (.truncate f n)) := by
  simp only [step, Own.does, k.present]
  cases h : r.at f with
  | none => exact k.agree rfl
  | some o =>
    simp only [Option.isSome_some, if_true]
    rcases at_some h with ⟨t, h1, rfl⟩ | ⟨h1, rfl, h2⟩
    · simp only [truncateOp, k.name, h1, Own.file, mine, (k.lk f t h1).1, k.data, Bool.true_and, Bool.and_true]
      split
      · exact ⟨k.set _ (ne_real _), rfl⟩
      · exact k.agree rfl
    · simp only [truncateOp, k.name, h1, Own.file, k.real]
      cases hx : r.real f with
      | none => rw [hx] at h2; cases h2
      | some x =>
        dsimp only
        by_cases hc : c.free f = true
        · have hm : mine c.free (.real f) = true := hc
          rw [if_pos hc]
          by_cases hw : x.w = true
          · rw [if_pos hw, if_pos (by rw [hw, hm]; rfl)]; exact ⟨k.set _ (is_real h2), rfl⟩
          · rw [if_neg hw, if_neg (by rw [hm, Bool.and_true]; exact hw)]; exact k.agree rfl
        · have hm : mine c.free (.real f) = false := Bool.eq_false_iff.mpr hc
          rw [if_neg hc, if_neg (by rw [hm, Bool.and_false]; simp)]
          exact k.agree rfl

theorem Rel.attr {s : St} {r : Own} (k : Rel s r) (f : Str) (g : File → File) :
    Agrees (if (r.at f).isSome then attrOp s f g else (s, .fail)) (match r.name f with | some i => (r.set (.tmp i) (g (r.data i)), .ok) | none => (r, .fail)) := by
  cases hn : r.name f with
  | none =>
    simp only [attrOp, k.name, hn]
    split <;> exact k.agree rfl
  | some t =>
    have : r.at f = some (.tmp t) := by simp [Own.at, hn]
    simp only [this, Option.isSome_some, if_true, attrOp, k.name, hn, (k.lk f t hn).1, k.data]
    exact ⟨k.set _ (ne_real _), rfl⟩

theorem Rel.utimens {s : St} {r : Own} (k : Rel s r) (c : Cfg) (f : Str) (m : Nat) : Agrees (step c s (.utimens f m)) (r.does c (.utimens f m)) := by
  simp only [step, Own.does, k.present]
  cases h : r.at f with
  | none => exact k.agree rfl
  | some o =>
    simp only [Option.isSome_some, if_true]
    rcases at_some h with ⟨t, h1, rfl⟩ | ⟨h1, rfl, h2⟩
    · simp only [utimensOp, k.name, h1, Own.file, mine, (k.lk f t h1).1, k.data, if_true]
      exact ⟨k.set _ (ne_real _), rfl⟩
    · simp only [utimensOp, k.name, h1, Own.file, k.real]
      cases hx : r.real f with
      | none => rw [hx] at h2; cases h2
      | some x =>
        dsimp only
        by_cases hc : c.free f = true
        · rw [if_pos hc, if_pos (show mine c.free (.real f) = true from hc)]; exact ⟨k.set _ (is_real h2), rfl⟩
        · rw [if_neg hc, if_neg (show ¬ mine c.free (.real f) = true from hc)]; exact k.agree rfl

/-- One usual operation. -/
theorem Rel.step {s : St} {r : Own} (k : Rel s r) {c : Cfg} (i : Inv c s) (o : Op) (u : r.usual c o) : Agrees (step c s o) (r.does c o) := by
  cases o with
  | create f a w => exact k.create c f a w
  | «open» f wr => exact k.open c f wr u
  | read h off n => exact k.read c h off n u
  | write h off b => exact k.write c h off b u
  | release h => exact k.closed c i h
  | unlink f => exact k.unlink c f u
  | rename f g => exact k.rename c f g u
  | truncate f n => exact k.truncate c f n
  | chmod f a w => simp only [OpenFiles.step, k.present]; exact k.attr f _
  | chown f u => simp only [OpenFiles.step, k.present]; exact k.attr f _
  | utimens f m => exact k.utimens c f m
  | link f g => exact k.agree rfl

theorem inv_start (c : Cfg) (real : Str → Option File) : Inv c (start real) :=
  ⟨List.nodup_nil, fun _ h => (by cases h), rfl, Nat.zero_le _, fun _ _ h => (by cases h)⟩

theorem Inv.run {c : Cfg} : ∀ {os : List Op} {s : St}, Inv c s → Inv c (OpenFiles.run c s os).1
  | [], _, i => i
  | o :: os, _, i => Inv.run (os := os) (i.step o)

theorem rel_start (real : Str → Option File) : Rel (start real) (Own.start real) :=
  ⟨List.nodup_nil, fun _ => rfl, fun _ _ h => (by cases h), fun _ h => (by cases h), fun _ _ _ h => (by cases h), rfl, rfl, rfl, rfl, rfl, [], rfl, rfl, fun _ h => (by cases h)⟩

theorem runs_rel {c : Cfg} {r r' : Own} {os : List Op} {rs : List Res} (h : Runs c r os rs r') : ∀ {s : St}, Inv c s → Rel s r → Rel (run c s os).1 r' ∧ (run c s os).2 = rs := by
  induction h with
  | nil r => exact fun _ k => ⟨k, rfl⟩
  | cons u _ ih =>
    intro s i k
    have a := k.step i _ u
    have b := ih (i.step _) a.1
    exact ⟨b.1, by simp only [run]; rw [a.2, b.2]⟩

theorem run_real {c : Cfg} (h3 : c.fuse3 = true) {g : Str} (h : c.open g = false) : ∀ {os : List Op} {s : St}, Inv c s → (run c s os).1.real g = s.real g
  | [], _, _ => rfl
  | o :: _, _, i => (run_real h3 h (i.step o)).trans (step_real h3 i o h)

theorem step_count (c : Cfg) (s : St) (o : Op) : (step c s o).1.count = s.count + openAfter [o] [(step c s o).2] := by
  have st : ∀ x y, (s.set x y).count = s.count := fun x y => (set_handles s x y).2.2
  cases o with
  | create f r w =>
    simp only [step, create]
    split
    · simp [openAfter]
    · simp [openAfter, addHandle]
  | «open» f wr =>
    simp only [step, openOp]
    repeat' (first | (simp [openAfter, addHandle]; done) | split)
  | read h off n => simp [step, openAfter]
  | write h off b =>
    simp only [step, write.eq_def]
    repeat' (first | (simp [openAfter, st]; done) | split)
  | release h =>
    simp only [step, release]
    repeat' (first | (simp [openAfter]; omega) | (simp [openAfter]; done) | split)
  | unlink f =>
    simp only [step]
    split
    · rw [(unlinkOp_same c s f).2.2.1]; simp [openAfter]
    · simp [openAfter]
  | rename f g =>
    simp only [step]
    split
    · split
      · simp [openAfter]
      · rw [(renameOp_same c s f g).2.2.1]; simp [openAfter]
    · simp [openAfter]
  | truncate f n =>
    simp only [step, truncateOp]
    repeat' (first | (simp [openAfter, st]; done) | split)
  | chmod f a w =>
    simp only [step, attrOp]
    repeat' (first | (simp [openAfter, st]; done) | split)
  | chown f u =>
    simp only [step, attrOp]
    repeat' (first | (simp [openAfter, st]; done) | split)
  | utimens f m =>
    simp only [step, utimensOp]
    repeat' (first | (simp [openAfter, st]; done) | split)
  | link f g => simp [step, openAfter]

theorem run_count (c : Cfg) : ∀ (os : List Op) (s : St), (run c s os).1.count = s.count + openAfter os (run c s os).2
  | [], s => by simp [run, openAfter]
  | o :: os, s => by
    have a := step_count c s o
    have b := run_count c os (step c s o).1
    simp only [run, openAfter] at a b ⊢
    omega

theorem getElem?_ftruncate (b : List Nat) (n i : Nat) : (ftruncate b n)[i]? = if i < n then some (b[i]?.getD 0) else none := by
  unfold ftruncate
  rw [List.getElem?_append, List.getElem?_take]
  by_cases h : i < n
  · by_cases h' : i < b.length
    · simp [h, h', Nat.lt_min]
    · have : ¬ i < min n b.length := by omega
      simp [h, h', this, List.getElem?_replicate]
      omega
  · have : ¬ i < min n b.length := by omega
    simp [h, this, List.getElem?_replicate]
    omega

end Tup.OpenFiles
