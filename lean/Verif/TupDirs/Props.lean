import Verif.TupDirs.Lemmas
import Verif.Symlink.Lemmas

/-! C99: the directories that a Tupfile names lead to the right place. -/

namespace Tup.TupDirs

open Tup.Relative
open Tup.Pel (Comps Leads Name)

variable {P : Proj} {root v : List Str} {tf : Tupfile} {V : Vars}

theorem keep_one {a b name t : Str} (ha : Plain a) (hb : Plain b) (hn : ')' ∉ name) {c : Char} (hc : Eval.Sigil c)
    (h : Eval.Stands (env P tf V) c name t []) : evalIn P tf V .keep (a ++ c :: '(' :: name ++ ')' :: b) = some (a ++ t ++ b, []) :=
  (Eval.c05_expansion _ _ _ _).2 (expands_one _ hc ha.1 ha.2.2 hb.1 hn h)

theorem any_one {a b name t : Str} (ha : Plain a) (hb : Plain b) (hn : ')' ∉ name) {c : Char} (hc : Eval.Sigil c)
    (h : Eval.Stands (env P tf V) c name t []) (ht : '%' ∉ t) (m : Mode) :
    evalIn P tf V m (a ++ c :: '(' :: name ++ ')' :: b) = some (a ++ t ++ b, []) := by
  cases m with
  | keep => exact keep_one ha hb hn hc h
  | expand | expandSrc =>
    refine (Eval.c05_with_nodes _ _ _ _ _).2 ⟨_, expands_one _ hc ha.1 ha.2.2 hb.1 hn h, ?_⟩
    have := fun path => nodes_plain path (s := a ++ t ++ b) (by simp [ha.2.1, hb.2.1, ht]) .nil
    rw [List.append_nil] at this
    exact this _

theorem node_one (srcOnly : Bool) {a b name t : Str} {id : Nat} (ha : Plain a) (hb : Plain b) (hn : ')' ∉ name) {c : Char} (hc : Eval.Sigil c)
    (h : Eval.Stands (env P tf V) c name (nodeRef id) []) (hid : id < 2 ^ 63) (ht : nodePath P tf srcOnly id = some t) :
    evalIn P tf V (if srcOnly then .expandSrc else .expand) (a ++ c :: '(' :: name ++ ')' :: b) = some (a ++ t ++ b, []) := by
  cases srcOnly <;>
  exact (Eval.c05_with_nodes _ _ _ _ _).2 ⟨_, expands_one _ hc ha.1 ha.2.2 hb.1 hn h, nodes_one _ hid ha.2.1 hb.2.1 ht⟩

theorem node_goes (hS : Sound P root) (hm : Mirror P v) (hc : Known P tf.cur) {id : Nat} (hi : Known P id) (srcOnly : Bool) :
    ∃ t, nodePath P tf srcOnly id = some t ∧ Goes (Inside P root) P root (P.src tf.cur) t (if srcOnly then P.src id else id) := by
  have hk : Known P (if srcOnly then P.src id else id) := by
    split
    · exact known_src hm hi
    · exact hi
  obtain ⟨t, h⟩ := rel_defined hS (known_src hm hc) hk
  refine ⟨t, ?_, rel_goes hS (known_src hm hc) hk h⟩
  obtain ⟨p, hp⟩ := hi
  unfold nodePath
  cases hp with
  | top x => rw [x]; exact h
  | child x _ => rw [x]; exact h

/-- C99: `$(TUP_CWD)` leads from the directory that is parsed to the directory of the file that is read, and in a variant also from the one
source directory to the other, which is where commands run and where inputs are looked up. -/
theorem c99_cwd (hS : Sound P root) (hm : Mirror P v) (ht : Known P tf.tent) (hc : Known P tf.cur) (hs : SameTree P tf) {a b : Str} (ha : Plain a)
    (hb : Plain b) : ∃ t, evalIn P tf V .keep (a ++ "$(TUP_CWD)".toList ++ b) = some (a ++ t ++ b, []) ∧
      ('%' ∉ t → ∀ m, evalIn P tf V m (a ++ "$(TUP_CWD)".toList ++ b) = some (a ++ t ++ b, [])) ∧
      Goes (Inside P root) P root tf.tent t tf.cur ∧ Goes (Inside P root) P root (P.src tf.tent) t (P.src tf.cur) := by
  obtain ⟨t, h⟩ := rel_defined hS ht hc
  have e : a ++ "$(TUP_CWD)".toList ++ b = a ++ '$' :: '(' :: "TUP_CWD".toList ++ ')' :: b := by simp
  rw [e]
  exact ⟨t, keep_one ha hb (by decide) (.inl rfl) (.cwd h), fun hp => any_one ha hb (by decide) (.inl rfl) (.cwd h) hp, rel_goes hS ht hc h,
    rel_src hS hm ht hc hs h⟩

/-- C99: `$(TUP_VARIANT_OUTPUTDIR)` leads from the directory in which the commands run to the directory of their outputs; without a variant it
is the dot. -/
theorem c99_outputdir (hS : Sound P root) (hm : Mirror P v) (ht : Known P tf.tent) {a b : Str} (ha : Plain a) (hb : Plain b) :
    ∃ t, evalIn P tf V .keep (a ++ "$(TUP_VARIANT_OUTPUTDIR)".toList ++ b) = some (a ++ t ++ b, []) ∧
      ('%' ∉ t → ∀ m, evalIn P tf V m (a ++ "$(TUP_VARIANT_OUTPUTDIR)".toList ++ b) = some (a ++ t ++ b, [])) ∧
      Goes (Inside P root) P root (P.src tf.tent) t tf.tent ∧ (P.srcid tf.tent = none → t = ".".toList) := by
  obtain ⟨t, h⟩ := rel_defined hS (known_src hm ht) ht
  have e : a ++ "$(TUP_VARIANT_OUTPUTDIR)".toList ++ b = a ++ '$' :: '(' :: "TUP_VARIANT_OUTPUTDIR".toList ++ ')' :: b := by simp
  rw [e]
  refine ⟨t, keep_one ha hb (by decide) (.inl rfl) (.outputDir h), fun hp => any_one ha hb (by decide) (.inl rfl) (.outputDir h) hp,
    rel_goes hS (known_src hm ht) ht h, fun hn => ?_⟩
  have hx : P.src tf.tent = tf.tent := by unfold Proj.src; rw [hn]
  rw [hx] at h
  obtain ⟨p, hp⟩ := ht
  obtain ⟨k, x, y, h1, h2, h3, _, rfl⟩ := relative_comps hS.proper hp hp h
  have h4 : x = y := List.append_cancel_left (h1.symm.trans h2)
  subst h4
  cases x with
  | nil => rw [if_pos ⟨rfl, rfl⟩]
  | cons z x => exact absurd rfl (h3 z z x x rfl rfl)

/-- C99: a variable to which one file assigns `$(TUP_VARIANTDIR)` leads, in whatever file it is used, from the source directory of that file to
the directory of the first file in the variant; in a place for inputs or outputs, to its source directory. -/
theorem c99_variantdir (hS : Sound P root) (hm : Mirror P v) {tf1 tf2 : Tupfile} {V1 V2 : Vars} (h1 : Known P tf1.cur) (h2 : Known P tf2.cur)
    (hid : tf1.cur < 2 ^ 63) {x val : Str} {d : List Str} (hx : Ordinary x) (hv : evalIn P tf1 V1 .keep "$(TUP_VARIANTDIR)".toList = some (val, d))
    (hu : V2.var x = some val) {a b : Str} (ha : Plain a) (hb : Plain b) :
    (∃ t, evalIn P tf2 V2 .expand (a ++ '$' :: '(' :: x ++ ')' :: b) = some (a ++ t ++ b, []) ∧ Goes (Inside P root) P root (P.src tf2.cur) t tf1.cur) ∧
    (∃ t, evalIn P tf2 V2 .expandSrc (a ++ '$' :: '(' :: x ++ ')' :: b) = some (a ++ t ++ b, []) ∧
      Goes (Inside P root) P root (P.src tf2.cur) t (P.src tf1.cur)) := by
  have hval : val = nodeRef tf1.cur := by
    have h := keep_one (P := P) (tf := tf1) (V := V1) (a := []) (b := []) (name := "TUP_VARIANTDIR".toList) (c := '$')
      ⟨by simp, by simp, by simp⟩ ⟨by simp, by simp, by simp⟩ (by decide) (.inl rfl) .variantDir
    have e : ([] : Str) ++ '$' :: '(' :: "TUP_VARIANTDIR".toList ++ [')'] = "$(TUP_VARIANTDIR)".toList := by decide
    rw [e, hv] at h
    simp only [Option.some.injEq, Prod.mk.injEq] at h
    rw [h.1]
    simp [nodeRef, env]
  subst hval
  have hst : Eval.Stands (env P tf2 V2) '$' x (nodeRef tf1.cur) [] := .var hx.2.1 hx.2.2.1 hx.2.2.2.1 hx.2.2.2.2 hu
  constructor
  · obtain ⟨t, h3, h4⟩ := node_goes (tf := tf2) hS hm h2 h1 false
    exact ⟨t, node_one false ha hb hx.1 (.inl rfl) hst hid h3, h4⟩
  · obtain ⟨t, h3, h4⟩ := node_goes (tf := tf2) hS hm h2 h1 true
    exact ⟨t, node_one true ha hb hx.1 (.inl rfl) hst hid h3, h4⟩

/-- C99: only a file of the sources or a directory can be the value of a node variable, looked up from the source directory of the file that is
read; the Tupfile then depends on it. -/
theorem c99_node_set (find : Nat → Str → Option Nat) (kind : Nat → Kind) (value ref : Str) (deps : List Nat) :
    setNode find kind P tf value = some (ref, deps) ↔
      ∃ id, find (P.src tf.cur) value = some id ∧ (kind id = .file ∨ kind id = .dir) ∧ ref = '%' :: Nat.toDigits 10 id ++ ['t'] ∧ deps = [id] := by
  unfold setNode
  cases find (P.src tf.cur) value with
  | none => simp
  | some id =>
    dsimp only
    unfold nodeRef
    rw [digits_eq]
    split
    · rename_i h
      constructor
      · intro e; cases e; exact ⟨id, rfl, h, rfl, rfl⟩
      · rintro ⟨i, e, _, rfl, rfl⟩; cases e; rfl
    · rename_i h
      constructor
      · intro e; cases e
      · rintro ⟨i, e, h', _⟩; cases e; exact absurd h' h

/-- C99: a node variable leads, in whatever file it is used, from the source directory of that file to the node. -/
theorem c99_node (hS : Sound P root) (hm : Mirror P v) {find : Nat → Str → Option Nat} {kind : Nat → Kind} {tf1 tf2 : Tupfile} {V2 : Vars}
    (h2 : Known P tf2.cur) (hf : ∀ d s id, find d s = some id → Known P id ∧ id < 2 ^ 63) {x value ref : Str} {deps : List Nat}
    (hx : ')' ∉ x) (hv : setNode find kind P tf1 value = some (ref, deps)) (hu : V2.nodeVar x = ref) {a b : Str} (ha : Plain a) (hb : Plain b) :
    ∃ id, find (P.src tf1.cur) value = some id ∧ 
    (∃ t, evalIn P tf2 V2 .expand (a ++ '&' :: '(' :: x ++ ')' :: b) = some (a ++ t ++ b, []) ∧ Goes (Inside P root) P root (P.src tf2.cur) t id) ∧
    (∃ t, evalIn P tf2 V2 .expandSrc (a ++ '&' :: '(' :: x ++ ')' :: b) = some (a ++ t ++ b, []) ∧
      Goes (Inside P root) P root (P.src tf2.cur) t (P.src id)) := by
  obtain ⟨id, h3, h4, h5, _⟩ := (c99_node_set find kind value ref deps).1 hv
  obtain ⟨hi, hid⟩ := hf _ _ _ h3
  have hst : Eval.Stands (env P tf2 V2) '&' x (nodeRef id) [] := by
    have := Eval.Stands.nodeVar (env := env P tf2 V2) (x := x)
    have e : (env P tf2 V2).nodeVar x = nodeRef id := by
      show V2.nodeVar x = _
      rw [hu, h5, nodeRef, digits_eq]
    rwa [e] at this
  refine ⟨id, h3, ?_, ?_⟩
  · obtain ⟨t, h5, h6⟩ := node_goes (tf := tf2) hS hm h2 hi false
    exact ⟨t, node_one false ha hb hx (.inr (.inr rfl)) hst hid h5, h6⟩
  · obtain ⟨t, h5, h6⟩ := node_goes (tf := tf2) hS hm h2 hi true
    exact ⟨t, node_one true ha hb hx (.inr (.inr rfl)) hst hid h5, h6⟩

/-- C99: `%d` is the name of the directory that is parsed. -/
theorem c99_directory (hS : Sound P root) (hr : root ≠ []) {p : List Str} (hp : Place P.T tf.tent p) :
    ∃ n, percentD P tf = some n ∧ (root ++ p).getLast? = some n := by
  unfold percentD
  split
  · rename_i h
    obtain ⟨n, hd⟩ := hS.dot
    rw [h] at hp
    have hp' := place_unique hp (.top hd)
    subst hp'
    refine ⟨_, rfl, ?_⟩
    obtain ⟨l, z, rfl⟩ : ∃ l z, root = l ++ [z] := ⟨root.dropLast, root.getLast hr, (List.dropLast_concat_getLast hr).symm⟩
    rw [hS.top, base_dirText (hS.names z (by simp))]
    simp
  · rename_i h
    obtain ⟨n, hd⟩ := hS.dot
    cases hp with
    | top x => exact absurd (hS.proper.top x hd) h
    | child x _ => rw [x]; exact ⟨_, rfl, by rw [← List.append_assoc]; simp⟩

/-- C99: the functions of a Tupfile.lua give what the variables give in a Tupfile; `tup.getdirectory` gives what `%d` gives, if no file of another
directory is included. -/
theorem c99_lua (hS : Sound P root) (hm : Mirror P v) (ht : Known P tf.tent) (hc : Known P tf.cur) :
    (luaCwd P tf).map (·, []) = evalIn P tf V .keep "$(TUP_CWD)".toList ∧
    some (luaVariantDir tf, []) = evalIn P tf V .keep "$(TUP_VARIANTDIR)".toList ∧
    (luaOutputDir P tf).map (·, []) = evalIn P tf V .keep "$(TUP_VARIANT_OUTPUTDIR)".toList ∧
    (tf.cur = tf.tent → luaDirectory P tf = percentD P tf) := by
  have hn : Plain [] := ⟨by simp, by simp, by simp⟩
  refine ⟨?_, ?_, ?_, ?_⟩
  · obtain ⟨t, h⟩ := rel_defined hS ht hc
    have hk := keep_one (P := P) (tf := tf) (V := V) (name := "TUP_CWD".toList) (c := '$') hn hn (by decide) (.inl rfl) (.cwd h)
    have e : ([] : Str) ++ '$' :: '(' :: "TUP_CWD".toList ++ [')'] = "$(TUP_CWD)".toList := by decide
    rw [← e, hk]
    unfold luaCwd
    rw [h]
    simp
  · have hk := keep_one (P := P) (tf := tf) (V := V) (name := "TUP_VARIANTDIR".toList) (c := '$') hn hn (by decide) (.inl rfl) .variantDir
    have e : ([] : Str) ++ '$' :: '(' :: "TUP_VARIANTDIR".toList ++ [')'] = "$(TUP_VARIANTDIR)".toList := by decide
    rw [← e, hk]
    simp [luaVariantDir, nodeRef, env]
  · obtain ⟨t, h⟩ := rel_defined hS (known_src hm ht) ht
    have hk := keep_one (P := P) (tf := tf) (V := V) (name := "TUP_VARIANT_OUTPUTDIR".toList) (c := '$') hn hn (by decide) (.inl rfl) (.outputDir h)
    have e : ([] : Str) ++ '$' :: '(' :: "TUP_VARIANT_OUTPUTDIR".toList ++ [')'] = "$(TUP_VARIANT_OUTPUTDIR)".toList := by decide
    rw [← e, hk]
    unfold luaOutputDir
    rw [h]
    simp
  · intro h
    unfold luaDirectory percentD
    rw [h]

/-- C99: in full, `tup.getdirectory` is what `%d` is if the directory that is parsed is the top, and else the name of the directory of the file that is
read, which is a dot if that is the top. -/
theorem c99_lua_directory (hS : Sound P root) (hr : root ≠ []) {p q : List Str} (hp : Place P.T tf.tent p) (hq : Place P.T tf.cur q) :
    (p = [] → luaDirectory P tf = root.getLast?) ∧ (p ≠ [] → q ≠ [] → luaDirectory P tf = q.getLast?) ∧
    (p ≠ [] → q = [] → luaDirectory P tf = (P.T dot).map (·.name)) := by
  obtain ⟨n, hd⟩ := hS.dot
  have ht : p = [] ↔ tf.tent = dot := by
    constructor
    · rintro rfl
      generalize hx : ([] : List Str) = x at hp
      cases hp with
      | top x => exact hS.proper.top x hd
      | child _ _ => simp at hx
    · intro e; rw [e] at hp; exact place_unique hp (.top hd)
  unfold luaDirectory
  refine ⟨fun h => ?_, fun h h' => ?_, fun h h' => ?_⟩
  · rw [if_pos (ht.1 h)]
    obtain ⟨l, z, rfl⟩ : ∃ l z, root = l ++ [z] := ⟨root.dropLast, root.getLast hr, (List.dropLast_concat_getLast hr).symm⟩
    rw [hS.top, base_dirText (hS.names z (by simp))]
    simp
  · rw [if_neg (fun e => h (ht.2 e))]
    cases hq with
    | top x => exact absurd rfl h'
    | child x _ => rw [x]; simp
  · rw [if_neg (fun e => h (ht.2 e))]
    subst h'
    generalize hx : ([] : List Str) = x at hq
    cases hq with
    | top x => rw [hS.proper.top x hd]
    | child _ _ => simp at hx

/-- C99: `tup.getrelativedir` leads from the directory that is named to the directory that is parsed. -/
theorem c99_relativedir (hS : Sound P root) {find : Nat → Str → Option Nat} {name : Str} {d : Nat} (hf : find tf.tent name = some d)
    (hd : Known P d) (ht : Known P tf.tent) : ∃ t, luaRelativeDir find P tf name = some t ∧ Goes (Inside P root) P root d t tf.tent := by
  obtain ⟨t, h⟩ := rel_defined hS hd ht
  refine ⟨t, ?_, rel_goes hS hd ht h⟩
  unfold luaRelativeDir
  rw [hf]
  exact h

/-- C99: `tup.nodevariable` finds the node at the directory of the file that is read, or else at its source directory; its text leads to it from
the directory of the file that uses it. -/
theorem c99_lua_node (hS : Sound P root) {find : Nat → Str → Option Nat} {kind : Nat → Kind} {name : Str} {id : Nat}
    (h : luaNode find kind P tf name = some id) (hi : Known P id) :
    (find tf.cur name = some id ∨ (find tf.cur name = none ∧ ∃ s, P.srcid tf.cur = some s ∧ find s name = some id)) ∧
    (kind id = .file ∨ kind id = .dir) ∧
    ∀ tf2, Known P tf2.cur → ∃ t, luaNodeText P tf2 id = some t ∧ Goes (Inside P root) P root tf2.cur t id := by
  have h' : (find tf.cur name = some id ∨ (find tf.cur name = none ∧ ∃ s, P.srcid tf.cur = some s ∧ find s name = some id)) ∧
      (kind id = .file ∨ kind id = .dir) := by
    unfold luaNode at h
    dsimp only at h
    split at h
    · rename_i i hi'
      split at h
      · rename_i hk; cases h; exact ⟨.inl hi', hk⟩
      · cases h
    · rename_i hn
      split at h
      · cases h
      · rename_i s hs
        split at h
        · rename_i i hi'
          split at h
          · rename_i hk; cases h; exact ⟨.inr ⟨hn, s, hs, hi'⟩, hk⟩
          · cases h
        · cases h
  refine ⟨h'.1, h'.2, fun tf2 hc => ?_⟩
  obtain ⟨t, ht⟩ := rel_defined hS hc hi
  exact ⟨t, ht, rel_goes hS hc hi ht⟩

/-! The project in /home/p: `sub/file`, `sub/inc`, and the variant `build` with `build/sub` and `build/sub/inc`. -/

def exT : Table
  | 1 => some ⟨".".toList, none⟩
  | 2 => some ⟨"sub".toList, some 1⟩
  | 3 => some ⟨"inc".toList, some 2⟩
  | 4 => some ⟨"file".toList, some 2⟩
  | 5 => some ⟨"build".toList, some 1⟩
  | 6 => some ⟨"sub".toList, some 5⟩
  | 7 => some ⟨"inc".toList, some 6⟩
  | _ => none

def exSrc : Nat → Option Nat
  | 5 => some 1
  | 6 => some 2
  | 7 => some 3
  | _ => none

def exP : Proj := ⟨exT, exSrc, 10, "/home/p".toList⟩
def exRoot : List Str := ["home".toList, "p".toList]
def exV : Vars := ⟨fun _ => none, fun x => if x = "D".toList then some "%7t".toList else none, fun _ => "%4t".toList⟩

theorem exT_cases {i : Nat} {n : Node} (h : exT i = some n) :
    (i, n) ∈ [(1, ⟨".".toList, none⟩), (2, ⟨"sub".toList, some 1⟩), (3, ⟨"inc".toList, some 2⟩), (4, ⟨"file".toList, some 2⟩),
      (5, ⟨"build".toList, some 1⟩), (6, ⟨"sub".toList, some 5⟩), (7, (⟨"inc".toList, some 6⟩ : Node))] := by
  unfold exT at h
  split at h <;> cases h <;> simp

theorem ex1 : Place exT 1 [] := .top rfl
theorem ex2 : Place exT 2 ["sub".toList] := .child (p := []) rfl ex1
theorem ex3 : Place exT 3 ["sub".toList, "inc".toList] := .child (p := ["sub".toList]) rfl ex2
theorem ex4 : Place exT 4 ["sub".toList, "file".toList] := .child (p := ["sub".toList]) rfl ex2
theorem ex5 : Place exT 5 ["build".toList] := .child (p := []) rfl ex1
theorem ex6 : Place exT 6 ["build".toList, "sub".toList] := .child (p := ["build".toList]) rfl ex5
theorem ex7 : Place exT 7 ["build".toList, "sub".toList, "inc".toList] := .child (p := ["build".toList, "sub".toList]) rfl ex6

theorem ex_sound : Sound exP exRoot where
  proper := by
    refine ⟨?_, ?_, ?_⟩
    · intro i j n m h1 h2
      have h1 := exT_cases h1
      have h2 := exT_cases h2
      simp at h1 h2
      omega
    · intro i j n h1 h2
      have h1 := exT_cases h1
      have h2 := exT_cases h2
      simp only [List.mem_cons, Prod.mk.injEq, List.not_mem_nil, or_false] at h1 h2
      rcases h1 with h1 | h1 | h1 | h1 | h1 | h1 | h1 <;> rcases h2 with h2 | h2 | h2 | h2 | h2 | h2 | h2 <;>
        obtain ⟨rfl, rfl⟩ := h1 <;> obtain ⟨rfl, h⟩ := h2 <;> first | rfl | (exact absurd h (by decide))
    · intro i n d h
      have h := exT_cases h
      simp only [List.mem_cons, Prod.mk.injEq, Node.mk.injEq, List.not_mem_nil, or_false, reduceCtorEq, and_false, false_or] at h
      rcases h with ⟨_, rfl, _⟩ | ⟨_, rfl, _⟩ | ⟨_, rfl, _⟩ | ⟨_, rfl, _⟩ | ⟨_, rfl, _⟩ | ⟨_, rfl, _⟩ <;>
        exact ⟨by decide, by decide, by decide, by decide⟩
  dot := ⟨_, rfl⟩
  deep := by
    intro id p hp
    have hid : ∃ n, exT id = some n := by cases hp with | top h => exact ⟨_, h⟩ | child h _ => exact ⟨_, h⟩
    obtain ⟨n, hn⟩ := hid
    have h := exT_cases hn
    simp only [List.mem_cons, Prod.mk.injEq, List.not_mem_nil, or_false] at h
    rcases h with ⟨rfl, _⟩ | ⟨rfl, _⟩ | ⟨rfl, _⟩ | ⟨rfl, _⟩ | ⟨rfl, _⟩ | ⟨rfl, _⟩ | ⟨rfl, _⟩
    · rw [place_unique hp ex1]; decide
    · rw [place_unique hp ex2]; decide
    · rw [place_unique hp ex3]; decide
    · rw [place_unique hp ex4]; decide
    · rw [place_unique hp ex5]; decide
    · rw [place_unique hp ex6]; decide
    · rw [place_unique hp ex7]; decide
  top := by decide
  names := by
    intro n hn
    simp only [exRoot, List.mem_cons, List.not_mem_nil, or_false] at hn
    rcases hn with rfl | rfl <;> exact ⟨by decide, by decide, by decide, by decide⟩

theorem ex_mirror : Mirror exP ["build".toList] := by
  intro id s h
  change exSrc id = some s at h
  unfold exSrc at h
  split at h
  · cases h; exact ⟨[], ex1, ex5⟩
  · cases h; exact ⟨_, ex2, ex6⟩
  · cases h; exact ⟨_, ex3, ex7⟩
  · cases h

theorem leads_any {D : List Str → Prop} {p l q : List Str} (h : Leads D p l q) : Leads (fun _ => True) p l q := by
  induction h with
  | here => exact .here
  | dot _ ih => exact .dot ih
  | up _ ih => exact .up ih
  | down h1 _ _ ih => exact .down h1 trivial ih

theorem not_goes {P : Proj} {root p q : List Str} {a b : Nat} {t : Str} {l : List Str} {D : List Str → Prop} (hp : Place P.T a p)
    (hq : Place P.T b q) (hl : ∀ e ∈ l, Pel.Good e) (ht : Comps t l) (h : root ++ q ≠ Pel.go (root ++ p) l) : ¬ Goes D P root a t b := by
  rintro ⟨p', q', l', h1, h2, h3, h4⟩
  rw [place_unique h1 hp, place_unique h2 hq, Symlink.comps_unique h3 ht] at h4
  exact h ((Pel.leads_go hl _ _).1 (leads_any h4))

/-- The claim that a node variable in a command always leads from the directory in which the command runs is false: in a file of another
directory that is included, it leads from the directory of that file.  The Tupfile of `sub` includes `inc/x.tup`, in which there is a rule with
`&(f)`: the command gets `../file` and runs in `sub`. -/
theorem c99_false_included (D : List Str → Prop) : evalIn exP ⟨2, 3⟩ exV .expand "cat &(f)".toList = some ("cat ../file".toList, []) ∧
    exP.src 2 = 2 ∧ ¬ Goes D exP exRoot 2 "../file".toList 4 := by
  refine ⟨by decide +kernel, rfl, not_goes (l := ["..".toList, "file".toList]) ex2 ex4 ?_ ?_ (by decide)⟩
  · intro e he
    simp only [List.mem_cons, List.not_mem_nil, or_false] at he
    rcases he with rfl | rfl <;> exact ⟨by decide, by decide⟩
  · exact Pel.comps_text (l := ["..".toList, "file".toList]) (by
      intro e he
      simp only [List.mem_cons, List.not_mem_nil, or_false] at he
      rcases he with rfl | rfl <;> exact ⟨by decide, by decide⟩) (w := []) (by simp)

/-- The claim that the text of a node variable of a Tupfile.lua leads from the directory in which commands run is false in a variant: it leads from
the directory of the variant.  Commands of `build/sub` run in `sub`, and get `../../sub/file`. -/
theorem c99_false_lua_node (D : List Str → Prop) : luaNodeText exP ⟨6, 6⟩ 4 = some "../../sub/file".toList ∧ exP.src 6 = 2 ∧
    ¬ Goes D exP exRoot 2 "../../sub/file".toList 4 := by
  have hg : ∀ e ∈ ["..".toList, "..".toList, "sub".toList, "file".toList], Pel.Good e := by
    intro e he
    simp only [List.mem_cons, List.not_mem_nil, or_false] at he
    rcases he with rfl | rfl | rfl | rfl <;> exact ⟨by decide, by decide⟩
  exact ⟨by decide +kernel, rfl, not_goes ex2 ex4 hg (Pel.comps_text hg (w := []) (by simp)) (by decide)⟩

/-- The claim that `%d` is the name of the directory in which the command runs is false at the top of a variant: it is the name of the variant. -/
theorem c99_false_d : percentD exP ⟨5, 5⟩ = some "build".toList ∧ exP.src 5 = 1 ∧ percentD exP ⟨1, 1⟩ = some "p".toList := by decide

/-- The claim that `tup.getdirectory` is what `%d` is, is false in a file of another directory that is included. -/
theorem c99_false_lua_directory : luaDirectory exP ⟨2, 3⟩ = some "inc".toList ∧ percentD exP ⟨2, 3⟩ = some "sub".toList := by decide

theorem plain_of {s : Str} (h : (decide ('(' ∉ s) && decide ('%' ∉ s) && decide (s.getLast? ≠ some '\\')) = true) : Plain s := by
  simp only [Bool.and_eq_true, decide_eq_true_eq] at h
  exact ⟨h.1.1, h.1.2, h.2⟩

/-! A Tupfile of `build/sub` that reads `inc/x.tup`. -/
example : evalIn exP ⟨6, 7⟩ exV .expand "cc -I$(TUP_CWD) x.c".toList = some ("cc -Iinc x.c".toList, []) := by decide +kernel
example : evalIn exP ⟨6, 7⟩ exV .keep "$(TUP_VARIANTDIR)".toList = some ("%7t".toList, []) := by decide +kernel
example : evalIn exP ⟨6, 6⟩ exV .expand "cc -I$(D)".toList = some ("cc -I../build/sub/inc".toList, []) := by decide +kernel
example : evalIn exP ⟨6, 6⟩ exV .expandSrc "$(D)".toList = some ("inc".toList, []) := by decide +kernel
example : evalIn exP ⟨6, 6⟩ exV .expand "-o $(TUP_VARIANT_OUTPUTDIR)".toList = some ("-o ../build/sub".toList, []) := by decide +kernel
example : evalIn exP ⟨6, 6⟩ exV .expand "cat &(f)".toList = some ("cat file".toList, []) := by decide +kernel

example : ∃ t, evalIn exP ⟨6, 7⟩ exV .keep "cc -I$(TUP_CWD) x.c".toList = some ("cc -I".toList ++ t ++ " x.c".toList, []) ∧
    Goes (Inside exP exRoot) exP exRoot 2 t 3 := by
  obtain ⟨t, h1, _, _, h2⟩ := c99_cwd (tf := ⟨6, 7⟩) (V := exV) (a := "cc -I".toList) (b := " x.c".toList) ex_sound ex_mirror ⟨_, ex6⟩ ⟨_, ex7⟩ rfl
    (plain_of (by decide)) (plain_of (by decide))
  exact ⟨t, h1, h2⟩

example : ∃ t, evalIn exP ⟨6, 6⟩ exV .keep "-o $(TUP_VARIANT_OUTPUTDIR)".toList = some ("-o ".toList ++ t ++ [], []) ∧
    Goes (Inside exP exRoot) exP exRoot 2 t 6 := by
  obtain ⟨t, h1, _, h2, _⟩ := c99_outputdir (tf := ⟨6, 6⟩) (V := exV) (a := "-o ".toList) (b := []) ex_sound ex_mirror ⟨_, ex6⟩
    (plain_of (by decide)) (plain_of (by decide))
  exact ⟨t, h1, h2⟩

theorem ex_ordinary : Ordinary "D".toList := by
  refine ⟨by decide, by decide, by decide, by decide, fun y hy h => ?_⟩
  have := congrArg List.length h
  simp at this

example : ∃ t, evalIn exP ⟨6, 6⟩ exV .expand "cc -I$(D)".toList = some ("cc -I".toList ++ t ++ [], []) ∧
    Goes (Inside exP exRoot) exP exRoot 2 t 7 :=
  (c99_variantdir (tf1 := ⟨6, 7⟩) (tf2 := ⟨6, 6⟩) (V1 := exV) (V2 := exV) (x := "D".toList) (a := "cc -I".toList) (b := []) ex_sound ex_mirror
    ⟨_, ex7⟩ ⟨_, ex6⟩ (by decide) ex_ordinary (val := "%7t".toList) (d := []) (by decide +kernel) (by decide) (plain_of (by decide)) (plain_of (by decide))).1

/-- What paths lead to in the examples. -/
def exFind : Nat → Str → Option Nat := fun d s => if d = 2 ∧ s = "file".toList then some 4 else if d = 6 ∧ s = "inc".toList then some 7 else none
def exKind : Nat → Kind := fun n => if n = 4 then .file else .dir

example : setNode exFind exKind exP ⟨6, 6⟩ "file".toList = some ("%4t".toList, [4]) := by decide

example : ∃ t, evalIn exP ⟨6, 6⟩ exV .expand "cat &(f)".toList = some ("cat ".toList ++ t ++ [], []) ∧ Goes (Inside exP exRoot) exP exRoot 2 t 4 := by
  obtain ⟨id, h1, h2, _⟩ := c99_node (tf1 := ⟨6, 6⟩) (tf2 := ⟨6, 6⟩) (V2 := exV) (find := exFind) (kind := exKind) (x := "f".toList) (a := "cat ".toList)
    (b := []) (value := "file".toList) (ref := "%4t".toList) (deps := [4]) ex_sound ex_mirror ⟨_, ex6⟩ (by
      intro d s id h
      unfold exFind at h
      split at h
      · cases h; exact ⟨⟨_, ex4⟩, by decide⟩
      · split at h
        · cases h; exact ⟨⟨_, ex7⟩, by decide⟩
        · cases h) (by decide) (by decide) rfl (plain_of (by decide)) (plain_of (by decide))
  have e : id = 4 := by
    have : exFind 2 "file".toList = some id := h1
    revert this
    rw [show exFind 2 "file".toList = some 4 from by decide]
    intro h; cases h; rfl
  rw [← e]
  exact h2

example : ∃ n, percentD exP ⟨7, 7⟩ = some n ∧ (exRoot ++ ["build".toList, "sub".toList, "inc".toList]).getLast? = some n :=
  c99_directory ex_sound (by decide) ex7
example : percentD exP ⟨7, 7⟩ = some "inc".toList := by decide

example : (luaCwd exP ⟨6, 7⟩).map (·, []) = evalIn exP ⟨6, 7⟩ exV .keep "$(TUP_CWD)".toList :=
  (c99_lua (tf := ⟨6, 7⟩) (v := ["build".toList]) ex_sound ex_mirror ⟨_, ex6⟩ ⟨_, ex7⟩).1

example : luaDirectory exP ⟨6, 7⟩ = some "inc".toList :=
  (c99_lua_directory (tf := ⟨6, 7⟩) ex_sound (by decide) ex6 ex7).2.1 (by decide) (by decide)
example : luaDirectory exP ⟨1, 3⟩ = some "p".toList := (c99_lua_directory (tf := ⟨1, 3⟩) ex_sound (by decide) ex1 ex3).1 rfl
example : luaDirectory exP ⟨2, 1⟩ = some ".".toList := (c99_lua_directory (tf := ⟨2, 1⟩) ex_sound (by decide) ex2 ex1).2.2 (by decide) rfl

example : luaRelativeDir exFind exP ⟨6, 6⟩ "inc".toList = some "..".toList := by decide
example : ∃ t, luaRelativeDir exFind exP ⟨6, 6⟩ "inc".toList = some t ∧ Goes (Inside exP exRoot) exP exRoot 7 t 6 :=
  c99_relativedir ex_sound (by decide) ⟨_, ex7⟩ ⟨_, ex6⟩

example : luaNode exFind exKind exP ⟨6, 6⟩ "file".toList = some 4 := by decide
example : ∃ t, luaNodeText exP ⟨2, 2⟩ 4 = some t ∧ Goes (Inside exP exRoot) exP exRoot 2 t 4 :=
  (c99_lua_node (tf := ⟨6, 6⟩) (find := exFind) (kind := exKind) (name := "file".toList) ex_sound (by decide) ⟨_, ex4⟩).2.2 ⟨2, 2⟩ ⟨_, ex2⟩

end Tup.TupDirs
