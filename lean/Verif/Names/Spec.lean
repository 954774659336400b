import Verif.Names.Model

/-! What the totals, the duplicate-free list, the extension and the text of a wildcard should be. -/

namespace Tup.Names

/-- Sum over a list. -/
def total (f : Entry → Int) : List Entry → Int
  | [] => 0
  | e :: l => f e + total f l

/-- The totals are the sums over the list. -/
structure Exact (nl : NameList) : Prop where
  num : nl.tot.num = nl.entries.length
  totlen : nl.tot.totlen = total Entry.len nl.entries
  basetotlen : nl.tot.basetotlen = total Entry.baselen nl.entries
  extlessbasetotlen : nl.tot.extlessbasetotlen = total Entry.extlessbaselen nl.entries
  globtotlen : ∀ i, nl.tot.globtotlen i = total (fun e => e.globlen i) nl.entries

/-- Name lists as they come up. -/
inductive Run : NameList → Prop
  | init : Run .empty
  | step {nl op} : Run nl → Run (step nl op)
  | moveTo {new old i} : Run new → Run old → Run (new.move old i).1
  | moveFrom {new old i} : Run new → Run old → Run (new.move old i).2

/-- A file name consists of a stem and an extension.  There is no extension if the only dot is at the
beginning, or there is none. -/
inductive Named : Str → Str → Option Str → Prop
  | ext {s e} : s ≠ [] → '.' ∉ e → Named (s ++ ".".toList ++ e) s (some e)
  | plain {s} : '.' ∉ s.drop 1 → Named s s none

end Tup.Names
