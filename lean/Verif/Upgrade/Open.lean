import Verif.Upgrade.Loop

namespace Tup.Upgrade

theorem find_setting (rows : Tab → List Row) {k : Val} (hk : k ≠ .null) :
    ((rows .config).find? fun r => sqlEq (r .lval) k) = (rows .config).find? fun r => r .lval == k := by
  congr 1
  funext r
  rw [sqlEq_comm, sqlEq_of_ne hk]
  exact BEq.comm

theorem getInt_found {v : Nat} {rows : Tab → List Row} {k x : Val} (hk : k ≠ .null) (h : setting rows k = some x) (dflt : Int) :
    getInt (mk v rows) k dflt = some (mk v rows, intOf x) := by
  unfold setting at h
  show (match ((rows .config).find? fun r => sqlEq (r .lval) k) with | none => _ | some r => _) = _
  rw [find_setting rows hk]
  cases e : (rows .config).find? fun r => r .lval == k with
  | none => rw [e] at h; cases h
  | some r =>
    rw [e] at h
    cases h
    rfl

theorem getInt_absent {v : Nat} {rows : Tab → List Row} {k : Val} (hk : k ≠ .null) (h : setting rows k = none) (dflt : Int) :
    getInt (mk v rows) k dflt = some (mk v (setRows rows .config (setRow (rows .config) k dflt)), dflt) := by
  unfold setting at h
  show (match ((rows .config).find? fun r => sqlEq (r .lval) k) with | none => _ | some r => _) = _
  rw [find_setting rows hk]
  cases e : (rows .config).find? fun r => r .lval == k with
  | some r => rw [e] at h; cases h
  | none =>
    simp only
    rw [setInt_mk hk]
    rfl

theorem keyVersion_ne : keyVersion ≠ .null := by simp [keyVersion]
theorem keyParser_ne : keyParser ≠ .null := by simp [keyParser]
theorem key_ne : keyParser ≠ keyVersion := by decide

/-- Parsing all Tupfiles in a database of version 19. -/
theorem exec_reparse19 {rows : Tab → List Row} (h : Sound 19 rows) :
    ∃ l, exec (mk 19 rows) reparse = some (mk 19 (setRows rows .createList l)) ∧ Sound 19 (setRows rows .createList l) ∧
      content 19 (setRows rows .createList l) = parseAll (content 19 rows) := by
  have hn := h.fits .node _ rfl
  have hc := h.fits .createList _ rfl
  obtain ⟨l, h1, h2, h3⟩ := exec_reparse (v := 19) (d := mk 19 rows) (nodes := rows .node) (create := rows .createList) (s := nodeAt 19) rfl rfl
    (node_ids (by omega) hn) rfl rfl hc
  refine ⟨l, ?_, ?_, ?_⟩
  · rw [h1]
    exact congrArg some (Db.ext' (fun t => by cases t <;> rfl) (fun i => by cases i <;> rfl))
  · constructor
    · intro t
      cases t
      case createList => intro s e; cases e; exact h2
      others h
    · intro _; omega
    · intro _; omega
    · intro _ _; omega
    · exact fun _ => h.mtime (by omega)
  · show ({ content 19 rows with create := l.map (· .id) } : Content) = _
    rw [h3]
    rfl

/-- What opening leaves of a database of version 19. -/
theorem checkParser_ok {rows : Tab → List Row} {bs : List (Int × Db)} (h : Sound 19 rows) (hp : ∀ n, setting rows keyParser = some (.int n) → 0 ≤ n) :
    ∃ rows', checkParser ⟨mk 19 rows, bs⟩ = (.ok, ⟨mk 19 rows', bs⟩) ∧ Sound 19 rows' ∧
      content 19 rows' = (if setting rows keyParser = some (.int 16) then content 19 rows else parseAll (content 19 rows)) ∧
      setting rows' keyParser = some (.int 16) ∧ (∀ k, k ≠ keyParser → setting rows' k = setting rows k) ∧
      (setting rows keyParser = some (.int 16) → rows' = rows) := by
  have hrest : ∀ rows1, Sound 19 rows1 → content 19 rows1 = content 19 rows → (∀ k, k ≠ keyParser → setting rows1 k = setting rows k) →
      ∃ rows', (match exec (mk 19 rows1) reparse with
          | none => (Outcome.failed, (⟨mk 19 rows, bs⟩ : Disk))
          | some d1 => match setInt d1 keyParser parserVersion with
            | none => (.failed, ⟨mk 19 rows, bs⟩)
            | some d2 => (.ok, ⟨d2, bs⟩)) = (.ok, ⟨mk 19 rows', bs⟩) ∧ Sound 19 rows' ∧ content 19 rows' = parseAll (content 19 rows) ∧
        setting rows' keyParser = some (.int 16) ∧ (∀ k, k ≠ keyParser → setting rows' k = setting rows k) := by
    intro rows1 hs hc hk
    obtain ⟨l, x1, x2, x3⟩ := exec_reparse19 hs
    refine ⟨setRows (setRows rows1 .createList l) .config (setRow (setRows rows1 .createList l .config) keyParser 16), ?_, setRow_sound x2, ?_, ?_, ?_⟩
    · rw [x1]
      simp only
      rw [setInt_mk keyParser_ne]
      rfl
    · rw [← hc, ← x3]
      rfl
    · rw [setting_set, if_pos rfl]
    · intro k hkk
      rw [setting_set, if_neg hkk, ← hk k hkk]
      rfl
  by_cases h16 : setting rows keyParser = some (.int 16)
  · refine ⟨rows, ?_, h, by rw [if_pos h16], h16, fun _ _ => rfl, fun _ => rfl⟩
    unfold checkParser
    simp only [getInt_found keyParser_ne h16]
    rfl
  · simp only [if_neg h16]
    cases e : setting rows keyParser with
    | none =>
      obtain ⟨rows', y1, y2, y3, y4, y5⟩ := hrest (setRows rows .config (setRow (rows .config) keyParser 0)) (setRow_sound h) rfl
        (fun k hk => by rw [setting_set, if_neg hk])
      refine ⟨rows', ?_, y2, y3, y4, y5, fun hx => by cases hx⟩
      unfold checkParser
      simp only [getInt_absent keyParser_ne e]
      exact y1
    | some x =>
      obtain ⟨rows', y1, y2, y3, y4, y5⟩ := hrest rows h rfl (fun _ _ => rfl)
      refine ⟨rows', ?_, y2, y3, y4, y5, fun hx => absurd (e.trans hx) h16⟩
      unfold checkParser
      simp only [getInt_found keyParser_ne e]
      cases x with
      | int n =>
        have hn := hp n e
        have hne : n ≠ 16 := by rintro rfl; exact h16 e
        rw [if_neg (show ¬ intOf (.int n) < 0 from Int.not_lt.2 hn), if_neg (show ¬ intOf (.int n) = parserVersion from hne)]
        exact y1
      | null => exact y1
      | text s => exact y1

/-- A version that is in the table. -/
theorem openDb_version {v : Nat} {rows : Tab → List Row} {bs : List (Int × Db)} {n : Int} (h : setting rows keyVersion = some (.int n)) (b : Bool) :
    openDb ⟨mk v rows, bs⟩ b =
      if n < 0 then (.failed, ⟨mk v rows, bs⟩)
      else if 19 < n then (.failed, ⟨mk v rows, bs⟩)
      else if n = 19 then checkParser ⟨mk v rows, bs⟩
      else if n < 3 then (.tooOld, ⟨mk v rows, bs⟩)
      else if b then (.failed, ⟨mk v rows, bs⟩)
      else
        match upgradeLoop (mk v rows) n.toNat (19 - n.toNat) with
        | none => (.failed, ⟨mk v rows, (n, mk v rows) :: bs⟩)
        | some d => checkParser ⟨d, (n, mk v rows) :: bs⟩ := by
  unfold openDb
  simp only [getInt_found keyVersion_ne h]
  rfl

end Tup.Upgrade
