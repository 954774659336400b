import Verif.MasterFork.Steps

/-! What is left to do becomes less. -/

namespace Tup.MasterFork

variable {R : Nat → Req}

def isHdr : Tok → Bool
  | .hdr _ => true
  | .byte _ => false

/-- The number of requests whose first part is in a piece of the socket. -/
def heads (l : List Tok) : Nat := (l.filter isHdr).length

theorem heads_append (a b : List Tok) : heads (a ++ b) = heads a + heads b := by
  simp [heads, List.filter_append]

theorem heads_bytes (b : Bytes) : heads (bytes b) = 0 := by
  induction b with
  | nil => rfl
  | cons x xs ih => exact ih

theorem heads_text (i : Nat) : heads (text R i) = 1 := by
  rw [text_eq]
  have h : ∀ (x : Hdr) (l : List Tok), heads (.hdr x :: l) = heads l + 1 := fun _ _ => rfl
  simp only [h, heads_append, heads_bytes]

def workPhase : Phase → Nat
  | .idle => 60
  | .registered => 40
  | .sending ws => 2 + ws.length + 20 * heads ws.flatten
  | .waiting => 1
  | .done _ => 0

def workChild (c : Child) : Nat := match c.status with
  | none => 8
  | some _ => 7

def workWaiter : Waiter → Nat
  | .idle => 1
  | .inWait => 0
  | .got _ _ => 6
  | .found _ _ _ => 5
  | .replying _ _ => 4
  | .dead => 0

def workMaster : Master → Nat
  | .reading => 0
  | .forked _ _ => 1
  | .dead => 0

/-- What is left to do for the calls below `m`. -/
def work (m : Nat) (s : S) : Nat :=
  ((List.range m).map (fun i => workPhase (s.calls i))).sum + 10 * heads s.stream + workMaster s.master +
    (s.children.map workChild).sum + workWaiter s.waiter + 2 * s.replies.length

theorem sum_set (f : Nat → Phase) (p : Phase) {i m : Nat} (h : i < m) :
    ((List.range m).map (fun k => workPhase (set f i p k))).sum + workPhase (f i) =
      ((List.range m).map (fun k => workPhase (f k))).sum + workPhase p := by
  induction m with
  | zero => omega
  | succ m ih =>
    rw [List.range_succ]
    simp only [List.map_append, List.map_cons, List.map_nil, List.sum_append, List.sum_cons, List.sum_nil]
    by_cases hi : i = m
    · subst hi
      rw [set_self]
      have : (List.range i).map (fun k => workPhase (set f i p k)) = (List.range i).map (fun k => workPhase (f k)) := by
        refine List.map_congr_left ?_
        intro k hk
        rw [set_other _ _ (by have := List.mem_range.1 hk; omega)]
      rw [this]
      omega
    · have := ih (by omega)
      rw [set_other f p (show m ≠ i by omega)]
      omega

/-- A step of the call `i` that puts it in phase `p`. -/
theorem work_call {m i : Nat} {s s' : S} {p : Phase} (hi : i < m) (e1 : s'.calls = set s.calls i p)
    (e2 : s'.master = s.master) (e3 : s'.children = s.children) (e4 : s'.waiter = s.waiter) (e5 : s'.replies = s.replies)
    (h : workPhase p + 10 * heads s'.stream < workPhase (s.calls i) + 10 * heads s.stream) : work m s' < work m s := by
  have := sum_set s.calls p hi
  unfold work
  rw [e1, e2, e3, e4, e5]
  omega

theorem sum_filter_pid {l : List Child} (h : (l.map (·.pid)).Nodup) {c : Child} (hc : c ∈ l) :
    (l.map workChild).sum = workChild c + ((l.filter (fun d => d.pid ≠ c.pid)).map workChild).sum := by
  have := ((perm_reap h hc).map workChild).sum_nat
  rw [this, List.map_cons, List.sum_cons]

theorem sum_exit {l : List Child} (h : (l.map (·.pid)).Nodup) {c : Child} (hc : c ∈ l) (hs : c.status = none) (st : Int) :
    ((l.map (fun d => if d.pid = c.pid then { d with status := some st } else d)).map workChild).sum + 1 =
      (l.map workChild).sum := by
  induction l with
  | nil => cases hc
  | cons x xs ih =>
    rw [List.map_cons, List.nodup_cons] at h
    rcases List.mem_cons.1 hc with rfl | hc'
    · have hid : xs.map (fun d => if d.pid = c.pid then { d with status := some st } else d) = xs := by
        conv => rhs; rw [← List.map_id xs]
        refine List.map_congr_left ?_
        intro d hd
        rw [if_neg (fun e => h.1 (List.mem_map.2 ⟨d, hd, e⟩))]; rfl
      rw [List.map_cons, hid, if_pos rfl]
      simp only [List.map_cons, List.sum_cons]
      have h1 : workChild c = 8 := by simp [workChild, hs]
      have h2 : workChild { c with status := some st } = 7 := rfl
      omega
    · have hx : x.pid ≠ c.pid := fun e => h.1 (List.mem_map.2 ⟨c, hc', e.symm⟩)
      have := ih h.2 hc'
      rw [List.map_cons, if_neg hx]
      simp only [List.map_cons, List.sum_cons]
      omega

/-- The waiter has nothing in its hands. -/
theorem progress_rest {s : S} {q : List Nat} {m : Nat} (h : Inv R s q) (hw : s.waiter ≠ .dead)
    (hm : ∀ i, m ≤ i → s.calls i = .idle) (hn : ∃ i, i < m ∧ ∀ st, s.calls i ≠ .done st)
    (insert : ∀ p i, s.master = .forked p i → p ∉ s.tree.map (·.1) → ∃ e, work m (step R e s) < work m s ∧
      (step R e s).waiter ≠ .dead ∧ ∀ i, m ≤ i → (step R e s).calls i = .idle)
    (hwt : s.waiter = .idle ∨ s.waiter = .inWait) :
    ∃ e, work m (step R e s) < work m s ∧ (step R e s).waiter ≠ .dead ∧
      ∀ i, m ≤ i → (step R e s).calls i = .idle := by
  have hc := h.core
  have hv := h.live hw
  have hrp : s.reaped = none := by
    have := hc.hand
    rcases hwt with hwt | hwt <;> (rw [hwt] at this; exact this)
  cases hms : s.master with
  | dead => exact absurd hms hv.alive
  | forked p i =>
    refine insert p i hms ?_
    intro hin
    obtain ⟨e, he, hep⟩ := List.mem_map.1 hin
    rcases hv.forked p i hms with ⟨c, c1, c2, c3⟩ | ⟨h1, _⟩
    · rcases hv.entry e he with ⟨d, d1, d2, d3⟩ | ⟨h1, _⟩
      · have := uniq_pid hv.pids c1 d1 (by rw [c2, d2, hep])
        subst this
        exact hv.fresh p i hms e he (by rw [← d3, c3])
      · rw [hrp] at h1; cases h1
    · rw [hrp] at h1; cases h1
  | reading =>
    cases hrep : s.replies with
    | cons x r =>
      obtain ⟨i, st⟩ := x
      refine ⟨.notify, ?_⟩
      have hg := inv_notify h
      have hin : i ∈ s.waiting := by
        refine Classical.byContradiction fun hni => ?_
        have := hg.core.notifier
        unfold notify at this
        rw [if_neg (by rw [hc.notifier]; simp), hrep] at this
        simp only at this
        rw [if_neg hni] at this
        cases this
      have : step R .notify s = { s with replies := r, waiting := s.waiting.erase i, told := (i, st) :: s.told } := by
        show notify s = _
        unfold notify
        rw [if_neg (by rw [hc.notifier]; simp), hrep]
        simp only
        rw [if_pos hin]
      rw [this]
      refine ⟨?_, hw, hm⟩
      simp only [work, hrep, List.length_cons]
      omega
    | nil =>
      cases hch : s.children with
      | cons c cs =>
        have hcm : c ∈ s.children := by rw [hch]; exact List.mem_cons_self
        cases hst : c.status with
        | none =>
          refine ⟨.exit c.pid 0, ?_⟩
          have hf : s.children.find? (fun d => d.pid = c.pid ∧ d.status = none) = some c := by
            rw [hch, List.find?_cons_of_pos]
            simp [hst]
          have : step R (.exit c.pid 0) s = { s with
              children := s.children.map (fun d => if d.pid = c.pid then { d with status := some 0 } else d),
              exits := (c.run, 0) :: s.exits } := by
            show exit c.pid 0 s = _
            unfold exit
            rw [hf]
          rw [this]
          refine ⟨?_, hw, hm⟩
          have := sum_exit hv.pids hcm hst 0
          simp only [work]
          omega
        | some st =>
          rcases hwt with hwt | hwt
          · refine ⟨.waiter 0, ?_⟩
            have ht : s.tree ≠ [] := by
              rcases hv.known c hcm with hk | hk
              · exact List.ne_nil_of_mem hk
              · rw [hms] at hk; cases hk
            have : step R (.waiter 0) s = { s with waiter := .inWait } := by
              show waiter 0 s = _
              simp only [waiter, hwt]
              rw [if_neg ht]
            rw [this]
            refine ⟨?_, by simp, hm⟩
            simp only [work, hwt, workWaiter]
            omega
          · refine ⟨.waiter c.pid, ?_⟩
            have hf : s.children.find? (fun d => d.pid = c.pid ∧ d.status ≠ none) = some c := by
              rw [hch, List.find?_cons_of_pos]
              simp [hst]
            have : step R (.waiter c.pid) s = { s with
                children := s.children.filter (fun d => d.pid ≠ c.pid)
                waiter := .got c.pid st, reaped := some c.run.sid } := by
              show waiter c.pid s = _
              simp only [waiter, hwt]
              rw [if_neg (by rw [hch]; simp), hf]
              obtain ⟨p, r, o⟩ := c
              simp only at hst
              subst hst
              rfl
            rw [this]
            refine ⟨?_, by simp, hm⟩
            have h1 := sum_filter_pid hv.pids hcm
            have h2 : workChild c = 7 := by simp [workChild, hst]
            simp only [work, hwt, workWaiter]
            omega
      | nil =>
        have hlt : ∀ i p, s.calls i = p → p ≠ .idle → i < m := by
          intro i p hp hne
          refine Classical.byContradiction fun hge => hne ?_
          rw [← hp]
          exact hm i (by omega)
        have idles : ∀ (i : Nat) (p : Phase), i < m → ∀ k, m ≤ k → set s.calls i p k = .idle := by
          intro i p hi k hk
          rw [set_other _ _ (by omega)]
          exact hm k hk
        rcases read_cases hc with hr | ⟨i, q', hq, rest, hr, hst, _, _⟩
        · cases hl : s.lock with
          | some k =>
            obtain ⟨ws, a, b, _⟩ := hc.held k hl
            have hkm := hlt k _ a (by simp)
            refine ⟨.caller k, ?_⟩
            cases ws with
            | nil =>
              have : step R (.caller k) s = { s with lock := none, calls := set s.calls k .waiting } := by
                show caller R k s = _
                simp only [caller, a]
              rw [this]
              refine ⟨work_call hkm rfl rfl rfl rfl rfl ?_, hw, idles k _ hkm⟩
              rw [a]
              simp only [workPhase]
              omega
            | cons w ws =>
              have : step R (.caller k) s = { s with stream := s.stream ++ w, calls := set s.calls k (.sending ws) } := by
                show caller R k s = _
                simp only [caller, a]
              rw [this]
              refine ⟨work_call hkm rfl rfl rfl rfl rfl ?_, hw, idles k _ hkm⟩
              rw [a]
              simp only [workPhase, heads_append, List.flatten_cons, List.length_cons]
              omega
          | none =>
            have hq : q = [] := by
              cases q with
              | nil => rfl
              | cons i q' =>
                rw [hc.free hl] at hr
                have : readMsg (all R (i :: q')) = .ok ⟨i, R i⟩ (all R q') := readMsg_text i _
                rw [this] at hr
                cases hr
            subst hq
            obtain ⟨i, him, hnd⟩ := hn
            refine ⟨.caller i, ?_⟩
            cases hp : s.calls i with
            | done st => exact absurd hp (hnd st)
            | idle =>
              have hni : i ∉ s.waiting := by rw [hc.wait, hp]; simp [Posted]
              have : step R (.caller i) s = { s with calls := set s.calls i .registered, waiting := i :: s.waiting } := by
                show caller R i s = _
                simp only [caller, hp]
                rw [if_neg hni]
              rw [this]
              refine ⟨work_call him rfl rfl rfl rfl rfl ?_, hw, idles i _ him⟩
              rw [hp]
              simp only [workPhase]
              omega
            | registered =>
              have : step R (.caller i) s = { s with lock := some i, calls := set s.calls i (.sending (msg i (R i))) } := by
                show caller R i s = _
                simp only [caller, hp, hl]
              rw [this]
              refine ⟨work_call him rfl rfl rfl rfl rfl ?_, hw, idles i _ him⟩
              rw [hp]
              have := heads_text (R := R) i
              simp only [workPhase]
              have h6 : (msg i (R i)).length = 6 := rfl
              have h1 : heads (msg i (R i)).flatten = 1 := this
              rw [h6, h1]
              omega
            | sending ws =>
              have := hc.send i ws hp
              rw [hl] at this
              cases this
            | waiting =>
              have hpl := (hc.mem i).2 (by rw [hp]; exact Or.inl rfl)
              simp only [places, hch, hrep, hrp, List.map_nil, Option.toList_none, List.nil_append] at hpl
              obtain ⟨x, hx, hxi⟩ := List.mem_map.1 hpl
              cases hf : s.told.find? (fun x => x.1 = i) with
              | none =>
                have := List.find?_eq_none.1 hf _ hx
                simp [hxi] at this
              | some y =>
                have : step R (.caller i) s = { s with
                    told := s.told.filter (fun x => x.1 ≠ i)
                    calls := set s.calls i (.done y.2) } := by
                  show caller R i s = _
                  simp only [caller, hp]
                  rw [hf]
                rw [this]
                refine ⟨work_call him rfl rfl rfl rfl rfl ?_, hw, idles i _ him⟩
                rw [hp]
                simp only [workPhase]
                omega
        · refine ⟨.master 0, ?_⟩
          have : step R (.master 0) s = { s with
              stream := rest, children := ⟨0, ⟨i, R i⟩, none⟩ :: s.children
              master := .forked 0 i, started := ⟨i, R i⟩ :: s.started } := by
            show master 0 s = _
            simp only [master, hms, hr]
            rw [if_neg (by rw [hch]; simp)]
          rw [this]
          refine ⟨?_, hw, hm⟩
          have hh : heads s.stream = 1 + heads rest := by
            rw [hst, heads_append, heads_text]
          have h8 : workChild ⟨0, ⟨i, R i⟩, none⟩ = 8 := rfl
          simp only [work, hms, workMaster, List.map_cons, List.sum_cons, hh, h8]
          omega

/-- As long as something is left to do, something can happen after which less is left to do. -/
theorem progress {s : S} {q : List Nat} {m : Nat} (h : Inv R s q) (hw : s.waiter ≠ .dead)
    (hm : ∀ i, m ≤ i → s.calls i = .idle) (hn : ∃ i, i < m ∧ ∀ st, s.calls i ≠ .done st) :
    ∃ e, work m (step R e s) < work m s ∧ (step R e s).waiter ≠ .dead ∧
      ∀ i, m ≤ i → (step R e s).calls i = .idle := by
  have hc := h.core
  have hv := h.live hw
  -- the waiter is at work
  have insert : ∀ p i, s.master = .forked p i → p ∉ s.tree.map (·.1) → ∃ e, work m (step R e s) < work m s ∧
      (step R e s).waiter ≠ .dead ∧ ∀ i, m ≤ i → (step R e s).calls i = .idle := by
    intro p i hf hp
    refine ⟨.master 0, ?_⟩
    have : step R (.master 0) s = { s with tree := (p, i) :: s.tree, master := .reading } := by
      show master 0 s = _
      simp only [master, hf]
      rw [if_neg hp]
    rw [this]
    refine ⟨?_, hw, hm⟩
    simp only [work, hf, workMaster]
    omega
  cases hwt : s.waiter with
  | dead => exact absurd hwt hw
  | got p st =>
    obtain ⟨i, h1, h2⟩ := hv.got p st hwt
    rcases h2 with h2 | ⟨h2, h3⟩
    · refine ⟨.waiter 0, ?_⟩
      have : step R (.waiter 0) s = { s with waiter := .found p i st } := by
        show waiter 0 s = _
        simp only [waiter, hwt]
        cases hf : s.tree.find? (fun e => e.1 = p) with
        | none =>
          have := List.find?_eq_none.1 hf _ h2
          simp at this
        | some e =>
          have hem := List.mem_of_find?_eq_some hf
          have hep : e.1 = p := by simpa using List.find?_some hf
          have := uniq_key hv.keys hem h2 hep
          rw [this]
      rw [this]
      refine ⟨?_, by simp, hm⟩
      simp only [work, hwt, workWaiter]
      omega
    · exact insert p i h2 h3
  | found p i st =>
    refine ⟨.waiter 0, ?_⟩
    have : step R (.waiter 0) s = { s with tree := s.tree.filter (fun e => e.1 ≠ p), waiter := .replying i st } := by
      show waiter 0 s = _
      simp only [waiter, hwt]
    rw [this]
    refine ⟨?_, by simp, hm⟩
    simp only [work, hwt, workWaiter]
    omega
  | replying i st =>
    refine ⟨.waiter 0, ?_⟩
    have : step R (.waiter 0) s = { s with replies := s.replies ++ [(i, st)], waiter := .idle, reaped := none } := by
      show waiter 0 s = _
      simp only [waiter, hwt]
    rw [this]
    refine ⟨?_, by simp, hm⟩
    simp only [work, hwt, workWaiter, List.length_append, List.length_cons, List.length_nil]
    omega
  | idle => exact progress_rest h hw hm hn insert (Or.inl hwt)
  | inWait => exact progress_rest h hw hm hn insert (Or.inr hwt)

/-- Only the calls of the events are made. -/
def callersOf : List Ev → List Nat
  | [] => []
  | .caller i :: es => i :: callersOf es
  | _ :: es => callersOf es

theorem calls_step (e : Ev) (s : S) (k : Nat) (h : ∀ i, e = .caller i → i ≠ k) : (step R e s).calls k = s.calls k := by
  cases e with
  | caller i =>
    have hk : k ≠ i := fun e => h i rfl e.symm
    show (caller R i s).calls k = _
    unfold caller
    split
    · split
      · rfl
      · exact set_other _ _ hk
    · split
      · exact set_other _ _ hk
      · rfl
    · exact set_other _ _ hk
    · exact set_other _ _ hk
    · split
      · rfl
      · exact set_other _ _ hk
    · rfl
  | master p =>
    show (master p s).calls k = _
    unfold master
    split
    · split
      · rfl
      · rfl
      · split <;> rfl
    · split <;> rfl
    · rfl
  | exit p st =>
    show (exit p st s).calls k = _
    unfold exit
    split <;> rfl
  | waiter p =>
    show (waiter p s).calls k = _
    unfold waiter
    split
    · split <;> rfl
    · split
      · rfl
      · split <;> rfl
    · split <;> rfl
    · rfl
    · rfl
    · rfl
  | notify =>
    show (notify s).calls k = _
    unfold notify
    split
    · rfl
    · split
      · rfl
      · split <;> rfl

theorem calls_run (es : List Ev) (s : S) (k : Nat) (h : k ∉ callersOf es) : (run R es s).calls k = s.calls k := by
  induction es generalizing s with
  | nil => rfl
  | cons e es ih =>
    show (run R es (step R e s)).calls k = _
    have h1 : k ∉ callersOf es := by
      intro hk
      apply h
      cases e <;> simp_all [callersOf]
    rw [ih _ h1]
    refine calls_step e s k ?_
    rintro i rfl rfl
    exact h List.mem_cons_self

theorem bounded (l : List Nat) : ∃ m, ∀ i, m ≤ i → i ∉ l := by
  induction l with
  | nil => exact ⟨0, fun i _ h => by cases h⟩
  | cons x xs ih =>
    obtain ⟨m, hm⟩ := ih
    refine ⟨m + x + 1, fun i hi hmem => ?_⟩
    rcases List.mem_cons.1 hmem with rfl | hmem
    · omega
    · exact hm i (by omega) hmem

theorem run_append (a b : List Ev) (s : S) : run R (a ++ b) s = run R b (run R a s) := by
  induction a generalizing s with
  | nil => rfl
  | cons e es ih => exact ih _

theorem finish (n : Nat) : ∀ {s : S} {m : Nat}, Good R s → s.waiter ≠ .dead → (∀ i, m ≤ i → s.calls i = .idle) →
    work m s ≤ n → ∃ es, ∀ i, i < m → ∃ st, (run R es s).calls i = .done st := by
  induction n with
  | zero =>
    intro s m hg hw hm hle
    refine Classical.byContradiction fun hno => ?_
    have hn : ∃ i, i < m ∧ ∀ st, s.calls i ≠ .done st := by
      refine Classical.byContradiction fun hall => hno ⟨[], fun i hi => ?_⟩
      refine Classical.byContradiction fun hh => hall ⟨i, hi, fun st e => hh ⟨st, e⟩⟩
    obtain ⟨q, hq⟩ := hg.inv
    obtain ⟨e, h1, _⟩ := progress hq hw hm hn
    omega
  | succ n ih =>
    intro s m hg hw hm hle
    refine Classical.byContradiction fun hno => ?_
    have hn : ∃ i, i < m ∧ ∀ st, s.calls i ≠ .done st := by
      refine Classical.byContradiction fun hall => hno ⟨[], fun i hi => ?_⟩
      refine Classical.byContradiction fun hh => hall ⟨i, hi, fun st e => hh ⟨st, e⟩⟩
    obtain ⟨q, hq⟩ := hg.inv
    obtain ⟨e, h1, h2, h3⟩ := progress hq hw hm hn
    obtain ⟨es, hes⟩ := ih (good_step e hg) h2 h3 (by omega)
    exact hno ⟨e :: es, hes⟩

/-! ### When the waiter has stopped -/

/-- Nothing will come back for the call `i`. -/
structure Stuck (s : S) (i : Nat) : Prop where
  waiter : s.waiter = .dead
  replies : i ∉ s.replies.map (·.1)
  told : i ∉ s.told.map (·.1)
  calls : ∀ st, s.calls i ≠ .done st

theorem stuck_step (e : Ev) {s : S} {i : Nat} (h : Stuck s i) : Stuck (step R e s) i := by
  cases e with
  | caller k =>
    show Stuck (caller R k s) i
    have gen : ∀ (p : Phase) (s' : S), (∀ st, p ≠ .done st) → s'.waiter = s.waiter → s'.replies = s.replies → s'.told = s.told →
        s'.calls = set s.calls k p → Stuck s' i := by
      intro p s' hp e1 e2 e3 e4
      refine ⟨by rw [e1]; exact h.waiter, by rw [e2]; exact h.replies, by rw [e3]; exact h.told, fun st => ?_⟩
      rw [e4]
      by_cases hik : i = k
      · subst hik; rw [set_self]; exact hp st
      · rw [set_other _ _ hik]; exact h.calls st
    unfold caller
    split
    · split
      · exact h
      · exact gen .registered _ (by simp) rfl rfl rfl rfl
    · split
      · exact gen (.sending _) _ (by simp) rfl rfl rfl rfl
      · exact h
    · exact gen (.sending _) _ (by simp) rfl rfl rfl rfl
    · exact gen .waiting _ (by simp) rfl rfl rfl rfl
    · split
      · exact h
      · rename_i x hf
        have hxm := List.mem_of_find?_eq_some hf
        have hxi : x.1 = k := by simpa using List.find?_some hf
        have hik : i ≠ k := by
          rintro rfl
          exact h.told (List.mem_map.2 ⟨x, hxm, hxi⟩)
        refine ⟨h.waiter, h.replies, ?_, fun st => ?_⟩
        · intro hm
          obtain ⟨y, hy, hyi⟩ := List.mem_map.1 hm
          exact h.told (List.mem_map.2 ⟨y, (List.mem_filter.1 hy).1, hyi⟩)
        · simp only [set_other _ _ hik]; exact h.calls st
    · exact h
  | master p =>
    show Stuck (master p s) i
    unfold master
    split
    · split
      · exact h
      · exact ⟨rfl, h.replies, h.told, h.calls⟩
      · split
        · exact h
        · exact ⟨h.waiter, h.replies, h.told, h.calls⟩
    · split
      · exact ⟨rfl, h.replies, h.told, h.calls⟩
      · exact ⟨h.waiter, h.replies, h.told, h.calls⟩
    · exact h
  | exit p st =>
    show Stuck (exit p st s) i
    unfold exit
    split
    · exact h
    · exact ⟨h.waiter, h.replies, h.told, h.calls⟩
  | waiter p =>
    show Stuck (waiter p s) i
    simp only [waiter, h.waiter]
    exact h
  | notify =>
    show Stuck (notify s) i
    unfold notify
    split
    · exact h
    · split
      · exact h
      · rename_i k st r hr
        have h1 := h.replies
        rw [hr, List.map_cons, List.mem_cons, not_or] at h1
        split
        · refine ⟨h.waiter, h1.2, ?_, h.calls⟩
          rw [List.map_cons, List.mem_cons, not_or]
          exact ⟨h1.1, h.told⟩
        · refine ⟨h.waiter, h.replies, h.told, h.calls⟩

theorem stuck_run (es : List Ev) {s : S} {i : Nat} (h : Stuck s i) : Stuck (run R es s) i := by
  induction es generalizing s with
  | nil => exact h
  | cons e es ih => exact ih (stuck_step e h)

/-! ### A call up to where it waits -/

theorem set_set (f : Nat → Phase) (i : Nat) (a b : Phase) : set (set f i a) i b = set f i b := by
  funext k
  simp only [set]
  split <;> rfl

/-- The events of one call up to where it waits. -/
def post (i : Nat) : List Ev := List.replicate 9 (.caller i)

theorem run_post {s : S} {i : Nat} (h1 : s.calls i = .idle) (h2 : i ∉ s.waiting) (h3 : s.lock = none) :
    run R (post i) s = { s with
        calls := set s.calls i .waiting, waiting := i :: s.waiting
        stream := s.stream ++ text R i } := by
  obtain ⟨calls, lock, waiting, stream, ms, ch, tr, wt, rp, td, nt, ex, sd, rd⟩ := s
  simp only at h1 h2 h3
  subst h3
  have a1 : ∀ calls waiting stream, calls i = .idle → i ∉ waiting →
      step R (.caller i) ⟨calls, none, waiting, stream, ms, ch, tr, wt, rp, td, nt, ex, sd, rd⟩ =
        ⟨set calls i .registered, none, i :: waiting, stream, ms, ch, tr, wt, rp, td, nt, ex, sd, rd⟩ := by
    intro calls waiting stream h1 h2
    simp only [step, caller, h1]
    rw [if_neg h2]
  have a2 : ∀ calls waiting stream,
      step R (.caller i) ⟨set calls i .registered, none, waiting, stream, ms, ch, tr, wt, rp, td, nt, ex, sd, rd⟩ =
        ⟨set calls i (.sending (msg i (R i))), some i, waiting, stream, ms, ch, tr, wt, rp, td, nt, ex, sd, rd⟩ := by
    intro calls waiting stream
    simp only [step, caller, set_self, set_set]
  have a3 : ∀ calls waiting stream w ws,
      step R (.caller i) ⟨set calls i (.sending (w :: ws)), some i, waiting, stream, ms, ch, tr, wt, rp, td, nt, ex, sd, rd⟩ =
        ⟨set calls i (.sending ws), some i, waiting, stream ++ w, ms, ch, tr, wt, rp, td, nt, ex, sd, rd⟩ := by
    intro calls waiting stream w ws
    simp only [step, caller, set_self, set_set]
  have a4 : ∀ calls waiting stream,
      step R (.caller i) ⟨set calls i (.sending []), some i, waiting, stream, ms, ch, tr, wt, rp, td, nt, ex, sd, rd⟩ =
        ⟨set calls i .waiting, none, waiting, stream, ms, ch, tr, wt, rp, td, nt, ex, sd, rd⟩ := by
    intro calls waiting stream
    simp only [step, caller, set_self, set_set]
  simp only [post, List.replicate, run]
  rw [a1 _ _ _ h1 h2, a2, msg, a3, a3, a3, a3, a3, a3, a4]
  simp only [text, msg, List.append_assoc, List.flatten_cons, List.flatten_nil, List.append_nil]

end Tup.MasterFork
