import Verif.Basic

/-!
How long things took: src/tup/timespan.c, the times of Tupfiles that are parsed while another one is (src/tup/parser.c:158-400 and
2610-2630), and the time that is recorded for a command (src/tup/updater.c:2625-2627).
-/

namespace Tup.Timespan

/-- `struct timeval`; `time_t` is taken for a number without bounds. -/
structure Tv where
  sec : Int
  usec : Int
  deriving DecidableEq

/-- `struct timespan`, timespan.h:26-29. -/
structure Span where
  start : Tv
  stop : Tv
  deriving DecidableEq

/-- `timespan_milliseconds`, timespan.c:34-39. The division of C rounds towards zero. -/
def milliseconds (t : Span) : Int :=
  (t.stop.sec - t.start.sec) * 1000 + (t.stop.usec - t.start.usec + 500).tdiv 1000

/-- `timespan_add_delta`, timespan.c:47-58. -/
def addDelta (t d : Span) : Span :=
  let sec := t.start.sec + (d.stop.sec - d.start.sec)
  let usec := t.start.usec + (d.stop.usec - d.start.usec)
  if usec ≥ 1000000 then { t with start := ⟨sec + 1, usec - 1000000⟩ }
  else if usec < 0 then { t with start := ⟨sec - 1, usec + 1000000⟩ }
  else { t with start := ⟨sec, usec⟩ }

/-- What happens while a Tupfile is parsed: when it began, the ones that it depends on and that were parsed meanwhile, and when it ended.
One that is not parsed at all (a virtual directory, parser.c:169-170) or with an error (2615-2625) is not modelled. -/
inductive Parse where
  | file (start : Tv) (kids : List Parse) (stop : Tv)

/-- What `parse` reports to the one that called it, parser.c:369-383: the whole time. -/
def Parse.whole : Parse → Span
  | .file start _ stop => ⟨start, stop⟩

/-- The Tupfile's own span: its start is moved by the whole time of each that was parsed meanwhile, parser.c:2629. -/
def own (start : Tv) (kids : List Parse) (stop : Tv) : Span :=
  ⟨(kids.foldl (fun t k => addDelta t k.whole) ⟨start, start⟩).start, stop⟩

mutual
/-- What is shown for a Tupfile, parser.c:172, 2629, 369 and `show_result`, and for those that were parsed meanwhile, which come first. -/
def shown : Parse → List Span
  | .file start kids stop => shownAll kids ++ [own start kids stop]

/-- The same for several. -/
def shownAll : List Parse → List Span
  | [] => []
  | k :: ks => shown k ++ shownAll ks
end

end Tup.Timespan
