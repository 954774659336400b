import Verif.Strings.Double

/-! C48 (growable strings), C19 and C53 (quoted names in the shell), C20 (JSON strings). -/

namespace Tup.Strings

/-- A growable string after `estring_init` and a sequence of appends. -/
def built (alloc : Nat → Bool) (l : List Str) : Res Estring := (init alloc).bind fun e => appendAll alloc e l

/-- **C48.**  For every sequence of appends with less than 2^30 bytes in total: unless memory runs out, the
string is the concatenation, with its length, followed by a NUL byte; no byte outside of the allocation is
written and no integer overflows. -/
theorem c48_appends_concatenate (alloc : Nat → Bool) (l : List Str) (hl : l.flatten.length < 2 ^ 30) :
    built alloc l = .err ∨ ∃ e, built alloc l = .ok e ∧ Holds e l.flatten := by
  unfold built
  by_cases ha : alloc 4096
  · obtain ⟨e, he, hh, hm⟩ := init_holds ha
    rw [he]
    rcases appendAll_ok (alloc := alloc) l (k := 12) hh hm (by omega) (by simpa using hl) with h | ⟨e', _, h, h', _⟩
    · exact .inl h
    · exact .inr ⟨e', h, by simpa using h'⟩
  · left
    rw [init, if_neg ha]; rfl

/-- **C48, enough memory.**  If every allocation succeeds there is no error either. -/
theorem c48_no_error_with_memory (l : List Str) (hl : l.flatten.length < 2 ^ 30) :
    ∃ e, built (fun _ => true) l = .ok e ∧ Holds e l.flatten := by
  rcases c48_appends_concatenate (fun _ => true) l hl with h | h
  · exfalso
    unfold built at h
    obtain ⟨e, he, _⟩ := init_holds (alloc := fun _ => true) rfl
    rw [he] at h
    exact appendAll_alloc l e h
  · exact h

/-- **C48, the limit.**  The bound is sharp: an append that brings the total to 2^30 or more overflows
`maxlen`. -/
theorem c48_limit_is_sharp (l : List Str) (s : Str) (hl : l.flatten.length < 2 ^ 30)
    (hs : 2 ^ 30 ≤ (l ++ [s]).flatten.length) : built (fun _ => true) (l ++ [s]) = .ub := by
  have app : ∀ (l : List Str) (e : Estring),
      appendAll (fun _ => true) e (l ++ [s]) = (appendAll (fun _ => true) e l).bind fun e => append (fun _ => true) e s := by
    intro l
    induction l with
    | nil =>
      intro e
      show appendAll _ e [s] = append _ e s
      rw [appendAll]
      cases append (fun _ => true) e s <;> simp [appendAll, Res.bind]
    | cons x l ih =>
      intro e
      rw [List.cons_append, appendAll, appendAll]
      cases append (fun _ => true) e x with
      | ok e' => exact ih e'
      | err => rfl
      | ub => rfl
  unfold built
  obtain ⟨e, he, hh, hm⟩ := init_holds (alloc := fun _ => true) rfl
  rw [he]
  show appendAll _ e (l ++ [s]) = .ub
  rw [app]
  rcases appendAll_ok (alloc := fun _ => true) l (k := 12) hh hm (by omega) (by simpa using hl) with
    h | ⟨e', k', h, h', hm', hk'⟩
  · exact absurd h (appendAll_alloc l e)
  · rw [h]
    refine append_bad h' hm' hk' ?_
    simpa using hs

/-- What a quoted %-flag makes of one name, src/tup/parser.c:3985-3987: quote, escaped name, quote. -/
def quotedName (alloc : Nat → Bool) (e : Estring) (q : Char) (name : Str) : Res Estring :=
  (append alloc e [q]).bind fun e => (appendEscape alloc e name q).bind fun e => append alloc e [q]

theorem quotedName_eq (e : Estring) (t : Str) (k : Nat) (h : Holds e t) (hm : e.maxlen = 2 ^ k) (hk : k ≤ 30)
    (q : Char) (name : Str) (hb : t.length + (escaped q name).length + 2 < 2 ^ 30) :
    ∃ e', quotedName (fun _ => true) e q name = .ok e' ∧ Holds e' (t ++ (q :: escaped q name ++ [q])) := by
  unfold quotedName
  rcases append_ok (alloc := fun _ => true) (src := [q]) h hm hk (by simp; omega) with he | ⟨e1, k1, he, h1, hm1, hk1⟩
  · exact absurd he append_alloc
  · rw [he]
    simp only [Res.bind]
    unfold appendEscape
    have hpe := escapePieces_eq q (name.length + 1) name (by omega)
    rcases appendAll_ok (alloc := fun _ => true) (escapePieces q (name.length + 1) name) h1 hm1 hk1
      (by rw [hpe]; simp; omega) with he | ⟨e2, k2, he2, h2, hm2, hk2⟩
    · exact absurd he (appendAll_alloc _ _)
    · rw [he2]
      dsimp only
      rw [hpe] at h2
      rcases append_ok (alloc := fun _ => true) (src := [q]) h2 hm2 hk2 (by simp; omega) with he | ⟨e3, k3, he3, h3, _⟩
      · exact absurd he append_alloc
      · exact ⟨e3, he3, by simpa using h3⟩

theorem escaped_cons (q c : Char) (s : Str) : escaped q (c :: s) =
    (if c = q then (if q = '\'' then "'\"'\"'".toList else "\\\"".toList) else [c]) ++ escaped q s := List.flatMap_cons

/-- **C19.**  For every file name, the text that `%'f` adds to a command line is read by a POSIX shell as
exactly that name, as one word. -/
theorem c19_single_quotes (e : Estring) (t : Str) (k : Nat) (h : Holds e t) (hm : e.maxlen = 2 ^ k) (hk : k ≤ 30)
    (name : Str) (hb : t.length + 5 * name.length + 2 < 2 ^ 30) :
    ∃ e' text, quotedName (fun _ => true) e '\'' name = .ok e' ∧ Holds e' (t ++ text) ∧
      shWord .plain text = some name := by
  have hl : (escaped '\'' name).length ≤ 5 * name.length := by
    clear hb
    induction name with
    | nil => simp [escaped]
    | cons c s ih =>
      rw [escaped_cons, List.length_append, List.length_cons]
      by_cases hc : c = '\''
      · rw [if_pos hc, if_pos rfl]
        have : "'\"'\"'".toList.length = 5 := by decide
        omega
      · rw [if_neg hc]
        have : [c].length = 1 := rfl
        omega
  obtain ⟨e', he, hh⟩ := quotedName_eq e t k h hm hk '\'' name (by omega)
  refine ⟨e', _, he, hh, ?_⟩
  rw [List.cons_append, shWord, if_pos rfl, shWord_single name []]
  · simp [shWord]
  · intro c' s' e _; exact absurd e (by decide)

theorem escaped_double_len (name : Str) : (escaped '"' name).length ≤ 2 * name.length := by
  induction name with
  | nil => simp [escaped]
  | cons c s ih =>
    rw [escaped_cons, List.length_append, List.length_cons]
    by_cases hc : c = '"'
    · rw [if_pos hc, if_neg (by decide)]
      have : "\\\"".toList.length = 2 := by decide
      omega
    · rw [if_neg hc]
      have : [c].length = 1 := rfl
      omega

/-- **C53, partial.**  The text that `%"f` adds is read as exactly that name if the name contains no `$`, no
backquote and no backslash.  Missing: names with these bytes, for which the claim is false (next theorem). -/
theorem c53_double_quotes_partial (e : Estring) (t : Str) (k : Nat) (h : Holds e t) (hm : e.maxlen = 2 ^ k)
    (hk : k ≤ 30) (name : Str) (hn : ∀ c ∈ name, c ≠ '$' ∧ c ≠ '`' ∧ c ≠ '\\')
    (hb : t.length + 2 * name.length + 2 < 2 ^ 30) :
    ∃ e' text, quotedName (fun _ => true) e '"' name = .ok e' ∧ Holds e' (t ++ text) ∧
      shWord .plain text = some name := by
  have hl := escaped_double_len name
  obtain ⟨e', he, hh⟩ := quotedName_eq e t k h hm hk '"' name (by omega)
  refine ⟨e', _, he, hh, ?_⟩
  rw [List.cons_append, shWord, if_neg (by decide), if_pos rfl, shWord_double name hn []]
  · simp [shWord]
  · intro c' s' e _; exact absurd e (by decide)

/-- **C53 is false in general**: a `$` is expanded by the shell, a backslash at the end swallows the closing
quote, two backslashes become one, a backslash before a quote ends the word early. -/
theorem c53_false :
    shWord .plain ('"' :: escaped '"' "a$b".toList ++ ['"']) = none ∧
    shWord .plain ('"' :: escaped '"' "a\\".toList ++ ['"']) = none ∧
    shWord .plain ('"' :: escaped '"' "a\\\\b".toList ++ ['"']) = some "a\\b".toList ∧
    shWord .plain ('"' :: escaped '"' "a\\\"b".toList ++ ['"']) ≠ some "a\\\"b".toList := by decide

/-- **C53, exactly.**  The text is read as the name exactly if there is no `$` and no backquote in the name, and every backslash is followed by something that is neither a quote nor a
backslash nor a newline. -/
theorem c53_exact (e : Estring) (t : Str) (k : Nat) (h : Holds e t) (hm : e.maxlen = 2 ^ k) (hk : k ≤ 30) (name : Str) (hb : t.length + 2 * name.length + 2 < 2 ^ 30) :
    ∃ e' text, quotedName (fun _ => true) e '"' name = .ok e' ∧ Holds e' (t ++ text) ∧
      (shWord .plain text = some name ↔
        (∀ c ∈ name, c ≠ '$' ∧ c ≠ '`') ∧ ∀ a b, name = a ++ '\\' :: b → ∃ c b', b = c :: b' ∧ c ∉ ['"', '\\', '\n']) := by
  have hl := escaped_double_len name
  obtain ⟨e', he, hh⟩ := quotedName_eq e t k h hm hk '"' name (by omega)
  refine ⟨e', _, he, hh, ?_⟩
  rw [← kept_iff _ name (Nat.le_refl _), ← sh_kept _ name (Nat.le_refl _), List.cons_append, sh_plain (by decide), if_neg (by decide), if_pos rfl]

/-- A backslash before a letter is kept, one before a quote is not. -/
example : shWord .plain ('"' :: escaped '"' "a\\b \"c\"".toList ++ ['"']) = some "a\\b \"c\"".toList := by decide

/-- **C20, the buffer.**  Printing a string stays inside its buffer exactly if some byte needs no escape; the
empty string and strings of only quotes and backslashes make it write one byte behind the end. -/
theorem c20_leaves_the_buffer_iff (s : Str) (h0 : '\x00' ∉ s) :
    printJson s = .ub ↔ ∀ c ∈ s, c = '\\' ∨ c = '"' := by
  rw [printJson_eq s h0]
  by_cases h : ∀ c ∈ s, c = '\\' ∨ c = '"'
  · simp only [if_pos h, true_iff]; exact h
  · rw [if_neg h]; simp only [reduceCtorEq, false_iff]; exact h

/-- **C20, decoding.**  What is printed decodes to the original string exactly if there are no control
characters in it. -/
theorem c20_decodes_iff (s out : Str) (h0 : '\x00' ∉ s) (h : printJson s = .ok out) :
    jsonDecode out = some s ↔ ∀ c ∈ s, control c = false := by
  rw [printJson_eq s h0] at h
  split at h
  · cases h
  · simp only [Res.ok.injEq] at h
    subst h
    constructor
    · intro hd c hc
      cases hcc : control c with
      | false => rfl
      | true => rw [jsonDecode_control s ⟨c, hc, hcc⟩] at hd; cases hd
    · exact jsonDecode_esc s

/-- **C20, always printed.**  A string with a byte that needs no escape is printed, whatever else is in it. -/
theorem c20_prints (s : Str) (h0 : '\x00' ∉ s) (h : ∃ c ∈ s, c ≠ '\\' ∧ c ≠ '"') : ∃ out, printJson s = .ok out := by
  rw [printJson_eq s h0, if_neg]
  · exact ⟨_, rfl⟩
  · intro hall
    obtain ⟨c, hc, h1, h2⟩ := h
    rcases hall c hc with h | h
    · exact h1 h
    · exact h2 h

/-! Concrete cases. -/

example (x : Str) (hx : x.length = 5000) : ∃ e, built (fun _ => true) ["gcc ".toList, x, " -o".toList] = .ok e ∧
    Holds e ("gcc ".toList ++ (x ++ " -o".toList)) := by
  have hf : ["gcc ".toList, x, " -o".toList].flatten = "gcc ".toList ++ (x ++ " -o".toList) := by simp
  have := c48_no_error_with_memory ["gcc ".toList, x, " -o".toList]
  rw [hf] at this
  refine this ?_
  rw [List.length_append, List.length_append, hx]
  decide

example : ∃ l : List Str, ∃ s : Str, l.flatten.length < 2 ^ 30 ∧ 2 ^ 30 ≤ (l ++ [s]).flatten.length :=
  ⟨[], List.replicate (2 ^ 30) 'a', by simp, by
    rw [List.nil_append, List.flatten_cons, List.flatten_nil, List.append_nil, List.length_replicate]
    exact Nat.le_refl _⟩

example : shWord .plain ('\'' :: escaped '\'' "it's $x \"\\`".toList ++ ['\'']) = some "it's $x \"\\`".toList := by
  decide

example : shWord .plain ('"' :: escaped '"' "my \"file\".c".toList ++ ['"']) = some "my \"file\".c".toList := by
  decide

example : printJson "gcc -DX=\"a b\" \\n".toList = .ok "gcc -DX=\\\"a b\\\" \\\\n".toList := by decide
example : jsonDecode "gcc -DX=\\\"a b\\\" \\\\n".toList = some "gcc -DX=\"a b\" \\n".toList := by decide
example : printJson "\\\"".toList = .ub ∧ printJson [] = .ub := by decide
example : printJson "a\tb".toList = .ok "a\tb".toList ∧ jsonDecode "a\tb".toList = none := by decide

end Tup.Strings
