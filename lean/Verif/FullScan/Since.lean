import Verif.FullScan.Kept

/-! What the scan must not forget: the relation between the database before and after. -/

namespace Tup.FullScan

open Tup.Db Tup.Scan

variable {db db' db1 db2 : Db} {d i j k : Nat}

/-- The path that leads from `r` to `j`. -/
inductive At (db : Db) (r : Nat) : List Str → Nat → Prop
  | nil : At db r [] r
  | snoc {p i j n} : At db r p i → db.node j = some n → n.dir = i → At db r (p ++ [n.name]) j

/-- What holds for the database before and after some files have been recorded or deleted.

* `cmd`: a command that is there has been there before, and is still scheduled if it was.
* `config`: what lies below a `tup.config` still does.
* `group`: no groups come into being.
* `normal`: no links come into being.
* `link`: a command that reads a source file is scheduled, or the file is still there under the same path, and has the same time or
  is on the list of modified files (on which it stays).
* `gen`, `made`: a generated file has been there before, under the same path; if its time is different, the commands that make it are scheduled.
* `new`: a source file has been there before, under the same path, or is on the list of modified files, or its directory is going to be parsed. -/
structure Since (db db' : Db) : Prop where
  cmd : ∀ j, db'.isKind .cmd j = true → db'.node j = db.node j ∧ (db.modify j = true → db'.modify j = true)
  config : ∀ j, db'.isKind .cmd j = true → InConfig db j → InConfig db' j
  group : ∀ j n, db'.node j = some n → n.kind = .group → db.node j = some n
  normal : ∀ a b, db'.normal a b = true → db.normal a b = true
  link : ∀ f n j, db.node f = some n → n.kind = .file → n.name ≠ tupConfig → db'.isKind .cmd j = true → db.normal f j = true →
    db'.modify j = true ∨ (db'.normal f j = true ∧ (db.modify f = true → db'.modify f = true) ∧
      (∀ r p, At db r p f → At db' r p f) ∧
      ∃ n', db'.node f = some n' ∧ n'.kind = .file ∧ n'.name = n.name ∧ (n'.mtime = n.mtime ∨ db'.modify f = true))
  gen : ∀ f n', db'.node f = some n' → n'.kind = .generated → ∃ n, db.node f = some n ∧ n.kind = .generated ∧ n.dir = n'.dir ∧
    n.name = n'.name ∧ ∀ r p, At db' r p f → At db r p f
  made : ∀ f n n', db.node f = some n → db'.node f = some n' → n'.kind = .generated → n'.mtime ≠ n.mtime →
    ∀ c, db'.isKind .cmd c = true → db'.normal c f = true → db'.modify c = true
  new : ∀ f n', db'.node f = some n' → n'.kind = .file → ¬ InConfig db' f →
    (∃ n, db.node f = some n ∧ n.kind = .file ∧ n.dir = n'.dir ∧ n.name = n'.name ∧
      (∀ r p, At db' r p f → At db r p f) ∧ ¬ InConfig db f ∧
      (db.modify f = true → db'.modify f = true) ∧ (db.create n.dir = true → db'.create n.dir = true)) ∨
    db'.modify f = true ∨ db'.create n'.dir = true

theorem Since.refl (db : Db) : Since db db where
  cmd := fun _ _ => ⟨rfl, fun h => h⟩
  config := fun _ _ h => h
  group := fun _ _ h _ => h
  normal := fun _ _ h => h
  link := fun _ n _ h hk _ _ hl => .inr ⟨hl, fun h => h, fun _ _ h => h, n, h, hk, rfl, .inl rfl⟩
  gen := fun _ n h hk => ⟨n, h, hk, rfl, rfl, fun _ _ h => h⟩
  made := fun _ n n' h h' _ ht => by rw [h] at h'; cases h'; exact absurd rfl ht
  new := fun _ n h hk hc => .inl ⟨n, h, hk, rfl, rfl, (fun _ _ h => h), hc, fun h => h, fun h => h⟩

theorem Since.isCmd (h : Since db db') (hj : db'.isKind .cmd j = true) : db.isKind .cmd j = true := by
  rw [← isKind_congr (h.cmd j hj).1]
  exact hj

theorem Since.trans (h : Since db db1) (h' : Since db1 db2) : Since db db2 where
  cmd := fun j hj => by
    obtain ⟨a, b⟩ := h'.cmd j hj
    obtain ⟨a', b'⟩ := h.cmd j (h'.isCmd hj)
    exact ⟨a.trans a', fun hm => b (b' hm)⟩
  config := fun j hj hc => h'.config j hj (h.config j (h'.isCmd hj) hc)
  group := fun j n hn hk => h.group j n (h'.group j n hn hk) hk
  normal := fun a b hl => h.normal a b (h'.normal a b hl)
  link := fun f n j hn hk hx hj hl => by
    rcases h.link f n j hn hk hx (h'.isCmd hj) hl with a | ⟨a1, a2, a3, m, a4, a5, a6, a7⟩
    · exact .inl ((h'.cmd j hj).2 a)
    · rcases h'.link f m j a4 a5 (by rw [a6]; exact hx) hj a1 with b | ⟨b1, b2, b3, q, b4, b5, b6, b7⟩
      · exact .inl b
      · refine .inr ⟨b1, fun hm => b2 (a2 hm), fun r p hp => b3 r p (a3 r p hp), q, b4, b5, b6.trans a6, ?_⟩
        rcases b7 with b7 | b7
        · rcases a7 with a7 | a7
          · exact .inl (b7.trans a7)
          · exact .inr (b2 a7)
        · exact .inr b7
  gen := fun f n' hn' hk => by
    obtain ⟨m, m1, m2, m3, m4, m5⟩ := h'.gen f n' hn' hk
    obtain ⟨q, q1, q2, q3, q4, q5⟩ := h.gen f m m1 m2
    exact ⟨q, q1, q2, q3.trans m3, q4.trans m4, fun r p hp => q5 r p (m5 r p hp)⟩
  made := fun f n n' hn hn' hk ht c hc hl => by
    obtain ⟨m, m1, m2, _⟩ := h'.gen f n' hn' hk
    by_cases hm : n'.mtime = m.mtime
    · exact (h'.cmd c hc).2 (h.made f n m hn m1 m2 (by rw [← hm]; exact ht) c (h'.isCmd hc) (h'.normal c f hl))
    · exact h'.made f m n' m1 hn' hk hm c hc hl
  new := fun f n' hn' hk hc => by
    rcases h'.new f n' hn' hk hc with ⟨m, m1, m2, m3, m4, m8, m5, m6, m7⟩ | a
    · rcases h.new f m m1 m2 m5 with ⟨q, q1, q2, q3, q4, q8, q5, q6, q7⟩ | a | a
      · exact .inl ⟨q, q1, q2, q3.trans m3, q4.trans m4, (fun r p hp => q8 r p (m8 r p hp)), q5, fun x => m6 (q6 x), fun x => by
          have := m7 (by rw [← q3]; exact q7 x)
          rw [q3]; exact this⟩
      · exact .inr (.inl (m6 a))
      · exact .inr (.inr (by rw [← m3]; exact m7 a))
    · exact .inr a

end Tup.FullScan
