import Verif.Update.Lemmas

/-! The invariant of a running update, and of the database between updates. -/

namespace Tup.Update

open Tup.Exec (upd Graph S Work Cfg Running upd_apply)

variable {π : Proj}

/-- `d` produces `p`. -/
def Prod (π : Proj) (d p : Nat) : Prop := d ∈ π.nodes ∧ π.isCmd d = true ∧ p ∈ π.outs d

/-- `p` may be different from what its users have seen, and tup knows. -/
def Dirty (π : Proj) (db : DB) (p : Nat) : Prop :=
  db.modify p = true ∨ ∃ d, Prod π d p ∧ db.modify d = true ∧ (π.optO d = false ∨ db.known p = none)

/-- The recorded state of command `c` matches a run on contents `v`. -/
def Matches (π : Proj) (db : DB) (c : Nat) (v : Content) : Prop :=
  Passes π c (π.beh c (mask π c v)) ∧
    (∀ o ∈ π.outs c, db.known o = (π.beh c (mask π c v)).out o) ∧
    (∀ p ∈ (π.beh c (mask π c v)).reads, p ∉ π.outs c → db.link p c = true)

/-- Invariant of the database between updates. -/
def J (π : Proj) (db : DB) : Prop :=
  ∀ c ∈ π.nodes, π.isCmd c = true → db.modify c = true ∨ ∃ v, Matches π db c v ∧
    ∀ p ∈ (π.beh c (mask π c v)).reads, p ∉ π.outs c → v p = db.known p ∨ Dirty π db p

/-- The edges of the update graph. -/
structure GE (π : Proj) (db0 : DB) (rest : List Nat) (E : List (Nat × Nat)) : Prop where
  edge : ∀ a b, (a, b) ∈ E ↔ (a ∈ rest ∧ b ∈ π.nodes ∧ normal π db0 a b = true) ∨
    (a = π.root ∧ b ∈ sched π db0) ∨ (a ∈ rest ∧ b ∈ rest ∧ π.isCmd b = true ∧ a ∈ π.sticky b)
  sched : ∀ x ∈ π.nodes, db0.modify x = true → x ∈ rest
  nodes : ∀ x ∈ rest, x ∈ π.nodes
  closed : ∀ a b, a ∈ rest → b ∈ π.nodes → normal π db0 a b = true → b ∈ rest

/-- Invariant of a running update.  `Dn`/`Fl`: finished successfully / failed. -/
structure K (π : Proj) (clean : Bool) (w0 : W) (rest : List Nat) (E : List (Nat × Nat)) (d : D) (Dn Fl : Nat → Prop) :
    Prop where
  flagSkip : ∀ x ∈ rest, ¬ Dn x → d.db.modify x = true → d.skip x = false
  skipFlag : ∀ x ∈ rest, π.isCmd x = true → ¬ Dn x → d.skip x = false → d.db.modify x = true
  doneClear : ∀ x ∈ rest, Dn x → d.db.modify x = false
  inRest : ∀ x ∈ π.nodes, d.db.modify x = true → x ∈ rest
  fresh : ∀ p, d.db.known p = d.content p ∨ ∃ e, Prod π e p ∧ Fl e
  main : clean = true → ∀ c ∈ π.nodes, π.isCmd c = true → d.db.modify c = true ∨ ∃ v, Matches π d.db c v ∧
    ∀ p ∈ (π.beh c (mask π c v)).reads, p ∉ π.outs c →
      (v p = d.db.known p ∧ ∀ e, Prod π e p → e ∉ rest ∨ Dn e) ∨
      ((p, c) ∈ E ∧ normal π w0.db p c = true ∧ (v p = d.db.known p ∨ Dirty π d.db p))
  /-- scheduled work is finished or still scheduled -/
  keep : ∀ x ∈ rest, w0.db.modify x = true → Dn x ∨ d.db.modify x = true
  skipMono : ∀ x, d.skip x = true → x ∉ sched π w0.db
  /-- nothing but the outputs of commands that were run changes -/
  same : ∀ p, d.content p = w0.content p ∨ ∃ e, Prod π e p ∧ e ∈ d.ran
  ranRest : ∀ e ∈ d.ran, e ∈ rest ∧ (Dn e ∨ Fl e)
  ranIff : ∀ c ∈ rest, π.isCmd c = true → Dn c → c ∈ d.ran ∨
    (w0.db.modify c = false ∧ ∀ p, normal π w0.db p c = true → p ∈ π.nodes →
      w0.db.modify p = false ∧ d.content p = w0.content p)
  changed : ∀ p ∈ rest, π.isCmd p = false → ¬ Dn p →
    w0.db.modify p = true ∨ (d.content p ≠ w0.content p ∧ ∀ e, Prod π e p → ¬ Fl e) → d.skip p = false
  spread : ∀ p ∈ rest, π.isCmd p = false → Dn p →
    w0.db.modify p = true ∨ d.content p ≠ w0.content p → ∀ c, normal π w0.db p c = true → c ∈ π.nodes →
    c ∈ d.ran ∨ (¬ Dn c ∧ d.skip c = false)

/-- What is known when the job of `n` ends. -/
structure Env (rest : List Nat) (E : List (Nat × Nat)) (g : Graph) (Dn Fl : Nat → Prop) (n : Nat) : Prop where
  nRest : n ∈ rest
  nDn : ¬ Dn n
  nFl : ¬ Fl n
  preds : ∀ a, (a, n) ∈ E → Dn a
  preds2 : ∀ a b, (a, n) ∈ E → (b, a) ∈ E → Dn b
  outs : ∀ x, x ∈ g.outs n ↔ (n, x) ∈ E
  outs2 : ∀ p, (n, p) ∈ E → ∀ x, x ∈ g.outs p ↔ (p, x) ∈ E
  ahead : ∀ x, (n, x) ∈ E → ¬ Dn x ∧ x ≠ n
  ahead2 : ∀ p x, (n, p) ∈ E → (p, x) ∈ E → ¬ Dn x ∧ x ≠ n
  excl : ∀ x, Dn x → ¬ Fl x
  flRest : ∀ x, Fl x → x ∈ rest
  order : ∀ a b, (a, b) ∈ E → Dn b → Dn a

variable {clean : Bool} {w0 : W} {rest : List Nat} {E : List (Nat × Nat)} {d d' : D} {Dn Fl : Nat → Prop} {n : Nat}
  {g : Graph}

theorem Prod.eq (ok : π.Ok) {a b p : Nat} (h1 : Prod π a p) (h2 : Prod π b p) : a = b :=
  ok.unique a h1.1 b h2.1 h1.2.1 h2.2.1 p h1.2.2 h2.2.2

theorem Prod.gen {a p : Nat} (h : Prod π a p) : π.gen p = true := gen_iff.2 ⟨a, h.1, h.2.1, h.2.2⟩

theorem gen_prod {p : Nat} (h : π.gen p = true) : ∃ a, Prod π a p := by
  obtain ⟨d, h1, h2, h3⟩ := gen_iff.1 h; exact ⟨d, h1, h2, h3⟩

theorem GE.prodEdge (ok : π.Ok) (ge : GE π w0.db rest E) {a p : Nat} (h : Prod π a p) (ha : a ∈ rest) :
    (a, p) ∈ E ∧ p ∈ rest := by
  have hp := (ok.outsIn a h.2.1 p h.2.2).1
  have hn : normal π w0.db a p = true := by simp [normal, h.2.1, h.2.2]
  exact ⟨(ge.edge a p).2 (Or.inl ⟨ha, hp, hn⟩), ge.closed a p ha hp hn⟩

theorem normal_file (ok : π.Ok) {db : DB} {p x : Nat} (hp : π.isCmd p = false) (h : normal π db p x = true) :
    π.isCmd x = true := by
  simp [normal, hp] at h; exact h.2

end Tup.Update
