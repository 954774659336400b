import Verif.Timespan.Model

/-!
C112: how long things took.
-/

namespace Tup.Timespan

/-- A time as the kernel gives it. -/
def Tv.Good (t : Tv) : Prop := 0 ≤ t.usec ∧ t.usec < 1000000

/-- In microseconds. -/
def Tv.us (t : Tv) : Int := t.sec * 1000000 + t.usec

def Span.Good (t : Span) : Prop := t.start.Good ∧ t.stop.Good

/-- How long it was, in microseconds. -/
def Span.us (t : Span) : Int := t.stop.us - t.start.us

/-- C112: the milliseconds are never more than half a millisecond too few, and never as much as one and a half too many. -/
theorem c112_bounds {t : Span} (h : t.Good) : t.us - 500 < 1000 * milliseconds t ∧ 1000 * milliseconds t < t.us + 1500 := by
  obtain ⟨⟨a, b⟩, c, d⟩ := h
  unfold milliseconds Span.us Tv.us
  by_cases hn : 0 ≤ t.stop.usec - t.start.usec + 500
  · rw [Int.tdiv_eq_ediv_of_nonneg hn]
    constructor <;> omega
  · have : (t.stop.usec - t.start.usec + 500).tdiv 1000 = -((-(t.stop.usec - t.start.usec + 500)) / 1000) := by
      rw [← Int.tdiv_eq_ediv_of_nonneg (by omega), Int.neg_tdiv, Int.neg_neg]
    rw [this]
    constructor <;> omega

/-- C112: they are the nearest number if the fraction of the second at the end is not less than that at the start (up to half a millisecond). -/
theorem c112_nearest {t : Span} (h : t.start.usec ≤ t.stop.usec + 500) : t.us - 500 < 1000 * milliseconds t ∧ 1000 * milliseconds t ≤ t.us + 500 := by
  unfold milliseconds Span.us Tv.us
  rw [Int.tdiv_eq_ediv_of_nonneg (by omega)]
  constructor <;> omega

/-- C112, what goes wrong: else they are not: something that took one millisecond is recorded with two. -/
theorem c112_not_nearest : ∃ t : Span, t.Good ∧ t.us = 1000 ∧ milliseconds t = 2 :=
  ⟨⟨⟨5, 999500⟩, ⟨6, 500⟩⟩, by unfold Span.Good Tv.Good; decide, by decide, by decide⟩

/-- C112: a clock that did not go back gives no negative number, and one that went back by more than one and a half milliseconds does. -/
theorem c112_sign {t : Span} (h : t.Good) : (0 ≤ t.us → 0 ≤ milliseconds t) ∧ (t.us ≤ -1500 → milliseconds t < 0) := by
  obtain ⟨h1, h2⟩ := c112_bounds h
  constructor <;> intro <;> omega

/-- C112: with a delta added, a span is shorter by just that delta, its start is again a time as the kernel gives it, and its end is the same. -/
theorem c112_delta {t d : Span} (h : t.start.Good) (hd : d.Good) :
    (addDelta t d).start.Good ∧ (addDelta t d).stop = t.stop ∧ (addDelta t d).us = t.us - d.us := by
  obtain ⟨⟨a, b⟩, c, e⟩ := hd
  obtain ⟨f, g⟩ := h
  unfold addDelta
  dsimp only
  split
  · refine ⟨⟨?_, ?_⟩, rfl, ?_⟩
    · show 0 ≤ t.start.usec + (d.stop.usec - d.start.usec) - 1000000; omega
    · show t.start.usec + (d.stop.usec - d.start.usec) - 1000000 < 1000000; omega
    · simp only [Span.us, Tv.us]; omega
  · split
    · refine ⟨⟨?_, ?_⟩, rfl, ?_⟩
      · show 0 ≤ t.start.usec + (d.stop.usec - d.start.usec) + 1000000; omega
      · show t.start.usec + (d.stop.usec - d.start.usec) + 1000000 < 1000000; omega
      · simp only [Span.us, Tv.us]; omega
    · refine ⟨⟨?_, ?_⟩, rfl, ?_⟩
      · show 0 ≤ t.start.usec + (d.stop.usec - d.start.usec); omega
      · show t.start.usec + (d.stop.usec - d.start.usec) < 1000000; omega
      · simp only [Span.us, Tv.us]; omega

mutual
/-- All times are as the kernel gives them. -/
def Clock : Parse → Prop
  | .file start kids stop => start.Good ∧ stop.Good ∧ ClockAll kids
def ClockAll : List Parse → Prop
  | [] => True
  | k :: ks => Clock k ∧ ClockAll ks
end

mutual
/-- The clock does not go back: the ones parsed meanwhile come one after the other between the start and the end. -/
def Forward : Parse → Prop
  | .file start kids stop => ForwardAll start.us kids stop.us
def ForwardAll : Int → List Parse → Int → Prop
  | a, [], b => a ≤ b
  | a, k :: ks, b => a ≤ k.whole.start.us ∧ Forward k ∧ ForwardAll k.whole.stop.us ks b
end

def total (l : List Span) : Int := (l.map Span.us).sum

theorem total_append (a b : List Span) : total (a ++ b) = total a + total b := by
  simp [total]

theorem clock_whole {k : Parse} (h : Clock k) : k.whole.Good := by
  cases k with
  | file s ks e => simp only [Clock] at h; exact ⟨h.1, h.2.1⟩

theorem fold_spec (kids : List Parse) (hk : ClockAll kids) : ∀ t : Span, t.start.Good →
    (kids.foldl (fun t k => addDelta t k.whole) t).start.Good ∧
    (kids.foldl (fun t k => addDelta t k.whole) t).start.us = t.start.us + total (kids.map Parse.whole) := by
  induction kids with
  | nil => intro t h; exact ⟨h, by simp [total]⟩
  | cons k ks ih =>
    intro t h
    simp only [ClockAll] at hk
    obtain ⟨a, b, c⟩ := c112_delta (t := t) h (clock_whole hk.1)
    obtain ⟨d, e⟩ := ih hk.2 _ a
    refine ⟨d, ?_⟩
    show (ks.foldl (fun t k => addDelta t k.whole) (addDelta t k.whole)).start.us = _
    rw [e]
    have : (addDelta t k.whole).start.us = t.start.us + k.whole.us := by
      unfold Span.us at c ⊢
      rw [b] at c
      omega
    rw [this]
    simp only [total, List.map_cons, List.sum_cons]
    omega

/-- The last span that is shown: the Tupfile's own. -/
theorem own_us {s e : Tv} {ks : List Parse} (hs : s.Good) (hk : ClockAll ks) :
    (own s ks e).us = e.us - s.us - total (ks.map Parse.whole) := by
  obtain ⟨_, h⟩ := fold_spec ks hk ⟨s, s⟩ hs
  show e.us - (ks.foldl (fun t k => addDelta t k.whole) ⟨s, s⟩).start.us = _
  rw [h]
  show e.us - (s.us + _) = _
  omega

mutual
theorem total_shown : ∀ k : Parse, Clock k → total (shown k) = k.whole.us
  | .file s ks e, h => by
    simp only [Clock] at h
    obtain ⟨h1, h2, h3⟩ := h
    rw [shown, total_append, total_shownAll ks h3]
    have : total [(own s ks e)] = e.us - s.us - total (ks.map Parse.whole) := by
      rw [← own_us h1 h3]
      simp [total]
    rw [this]
    show _ = e.us - s.us
    omega
theorem total_shownAll : ∀ ks : List Parse, ClockAll ks → total (shownAll ks) = total (ks.map Parse.whole)
  | [], _ => rfl
  | k :: ks, h => by
    simp only [ClockAll] at h
    rw [shownAll, total_append, total_shown k h.1, total_shownAll ks h.2]
    simp [total]
end

/-- C112: the times shown for a Tupfile and for all that were parsed meanwhile, however deep, make exactly the time that passed: nothing is
counted twice, and nothing is left out. -/
theorem c112_once {k : Parse} (h : Clock k) : ((shown k).map Span.us).sum = k.whole.us := total_shown k h

/-- C112: the time that is shown for a Tupfile is its whole time without the whole times of those that were parsed meanwhile. -/
theorem c112_own {s e : Tv} {ks : List Parse} (h : Clock (.file s ks e)) :
    ∃ o, (shown (.file s ks e)).getLast? = some o ∧ o.stop = e ∧ o.start.Good ∧ o.us = (e.us - s.us) - (ks.map fun k => k.whole.us).sum := by
  simp only [Clock] at h
  refine ⟨own s ks e, by rw [shown, List.getLast?_append]; rfl, rfl, (fold_spec ks h.2.2 ⟨s, s⟩ h.1).1, ?_⟩
  rw [own_us h.1 h.2.2]
  simp [total, List.map_map, Function.comp_def]

mutual
theorem forward_shown : ∀ k : Parse, Clock k → Forward k → (∀ t ∈ shown k, 0 ≤ t.us) ∧ 0 ≤ k.whole.us
  | .file s ks e, h, hf => by
    simp only [Clock] at h
    simp only [Forward] at hf
    obtain ⟨a, b, c⟩ := forward_all ks s.us e.us h.2.2 hf
    refine ⟨fun t ht => ?_, by show 0 ≤ e.us - s.us; omega⟩
    rw [shown, List.mem_append] at ht
    rcases ht with ht | ht
    · exact a t ht
    · rw [List.mem_singleton.1 ht, own_us h.1 h.2.2]
      omega
theorem forward_all : ∀ (ks : List Parse) (a b : Int), ClockAll ks → ForwardAll a ks b →
    (∀ t ∈ shownAll ks, 0 ≤ t.us) ∧ 0 ≤ total (ks.map Parse.whole) ∧ total (ks.map Parse.whole) ≤ b - a
  | [], a, b, _, hf => by
    simp only [ForwardAll] at hf
    refine ⟨fun t ht => by simp [shownAll] at ht, by simp [total], ?_⟩
    simp [total]
    omega
  | k :: ks, a, b, h, hf => by
    simp only [ClockAll] at h
    simp only [ForwardAll] at hf
    obtain ⟨x, y⟩ := forward_shown k h.1 hf.2.1
    obtain ⟨u, v, w⟩ := forward_all ks _ b h.2 hf.2.2
    have : total ((k :: ks).map Parse.whole) = k.whole.us + total (ks.map Parse.whole) := by simp [total]
    have hk : k.whole.us = k.whole.stop.us - k.whole.start.us := rfl
    refine ⟨fun t ht => ?_, by omega, by omega⟩
    rw [shownAll, List.mem_append] at ht
    rcases ht with ht | ht
    · exact x t ht
    · exact u t ht
end

/-- C112: if the clock did not go back, none of them is negative. -/
theorem c112_forward {k : Parse} (h : Clock k) (hf : Forward k) : ∀ t ∈ shown k, 0 ≤ t.us := (forward_shown k h hf).1

/-! Cases that meet the hypotheses: a Tupfile that takes 3 seconds, in which one is parsed that takes 1.2, in which another one takes 0.5; and then
one of 0.9. -/

def sample : Parse :=
  .file ⟨10, 600000⟩ [.file ⟨10, 700000⟩ [.file ⟨11, 0⟩ [] ⟨11, 500000⟩] ⟨11, 900000⟩, .file ⟨12, 200000⟩ [] ⟨13, 100000⟩] ⟨13, 600000⟩

theorem sample_clock : Clock sample := by
  simp only [sample, Clock, ClockAll, Tv.Good]; decide

theorem sample_forward : Forward sample := by
  simp only [sample, Forward, ForwardAll, Tv.us, Parse.whole]; decide

/-- `c112_once`, `c112_own`, `c112_forward`. -/
example : ((shown sample).map Span.us) = [500000, 700000, 900000, 900000] ∧ sample.whole.us = 3000000 := by decide +kernel

/-- `c112_delta`: over a second. -/
example : addDelta ⟨⟨1, 900000⟩, ⟨9, 0⟩⟩ ⟨⟨3, 800000⟩, ⟨4, 100000⟩⟩ = ⟨⟨2, 200000⟩, ⟨9, 0⟩⟩ := by decide

/-- `c112_bounds`, `c112_nearest`, `c112_sign`. -/
example : milliseconds ⟨⟨1, 200⟩, ⟨3, 1900⟩⟩ = 2002 ∧ milliseconds ⟨⟨3, 0⟩, ⟨1, 0⟩⟩ = -2000 := by decide

end Tup.Timespan
