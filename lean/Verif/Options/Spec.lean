import Verif.Options.Model

/-! What options mean: the command line, the format of option files, the order of precedence. -/

namespace Tup.Options

/-- The argument of the command line gives the option that value. -/
inductive Arg : Str → Str → Str → Prop where
  | keepGoing : Arg "--keep-going".toList "updater.keep_going".toList "1".toList
  | k : Arg "-k".toList "updater.keep_going".toList "1".toList
  | noKeepGoing : Arg "--no-keep-going".toList "updater.keep_going".toList "0".toList
  | jobs (n : Str) : Arg ("-j".toList ++ n) "updater.num_jobs".toList n
  | noSync : Arg "--no-sync".toList "db.sync".toList "0".toList
  | color (v : Str) : v = "never".toList ∨ v = "always".toList ∨ v = "auto".toList →
      Arg ("--display-color=".toList ++ v) "display.color".toList v

/-- The argument is an error. -/
def BadArg (a : Str) : Prop := (∃ v, a = "--display-color".toList ++ v) ∧ ¬ ∃ opt v, Arg a opt v

/-- The last element of the list that gives a value gives this one. -/
def Last {α : Type} (gives : α → Str → Prop) (l : List α) (v : Str) : Prop :=
  ∃ l1 a l2, l = l1 ++ a :: l2 ∧ gives a v ∧ ∀ b ∈ l2, ∀ w, ¬ gives b w

/-- No element of the list gives a value. -/
def Unset {α : Type} (gives : α → Str → Prop) (l : List α) : Prop := ∀ a ∈ l, ∀ v, ¬ gives a v

def Blank (s : Str) : Prop := ∀ c ∈ s, isSpace c = true

/-- `t` is `s` without the white space at both ends. -/
def Trim (s t : Str) : Prop :=
  ∃ w w', s = w ++ t ++ w' ∧ Blank w ∧ Blank w' ∧ (∀ c, t.head? = some c → isSpace c = false) ∧ ∀ c, t.getLast? = some c → isSpace c = false

/-- There is no comment inside: a semicolon after white space. -/
def NoComment (s : Str) : Prop := ∀ a c b, s = a ++ c :: ';' :: b → isSpace c = false

/-- `t` is `s` without the comment at its end. -/
inductive Uncommented : Str → Str → Prop where
  | none {s} : NoComment s → Uncommented s s
  | cut {s c t} : NoComment (s ++ [c]) → isSpace c = true → Uncommented (s ++ [c] ++ ';' :: t) (s ++ [c])

/-- The lines of an option file. -/
inductive Line where
  | skip
  | more (value : Str)
  | sect (name : Str)
  | setting (name value : Str)
  | bad
deriving DecidableEq

/-- The line is indented, and there is a setting above it that it can continue. -/
def Continues (prev : Bool) (line : Str) : Prop := prev = true ∧ ∃ c t, line = c :: t ∧ isSpace c = true

/-- `[name]` and then anything. -/
def SectionText (t name : Str) : Prop := ∃ rest, t = '[' :: name ++ ']' :: rest ∧ ']' ∉ name ∧ NoComment name

/-- `name = value`. -/
def SettingText (t name value : Str) : Prop :=
  ∃ n d v u, t = n ++ d :: v ∧ (d = '=' ∨ d = ':') ∧ '=' ∉ n ∧ ':' ∉ n ∧ NoComment n ∧ Trim n name ∧ Uncommented v u ∧ Trim u value

/-- What a line is.  `prev`: there is a setting above it in the section. -/
inductive LineIs (prev : Bool) (line : Str) : Line → Prop where
  | blank : Trim line [] → LineIs prev line .skip
  | comment {c t} : Trim line (c :: t) → c = ';' ∨ c = '#' → LineIs prev line .skip
  | more {c t u v} : Continues prev line → Trim line (c :: t) → c ≠ ';' → c ≠ '#' → Uncommented (c :: t) u → Trim u v → LineIs prev line (.more v)
  | sect {t name} : ¬ Continues prev line → Trim line t → SectionText t name → LineIs prev line (.sect name)
  | setting {c t name value} : ¬ Continues prev line → Trim line (c :: t) → c ≠ ';' → c ≠ '#' → c ≠ '[' → SettingText (c :: t) name value →
      LineIs prev line (.setting name value)
  | badSect {t} : ¬ Continues prev line → Trim line ('[' :: t) → (¬ ∃ name, SectionText ('[' :: t) name) → LineIs prev line .bad
  | badSetting {c t} : ¬ Continues prev line → Trim line (c :: t) → c ≠ ';' → c ≠ '#' → c ≠ '[' →
      (¬ ∃ name value, SettingText (c :: t) name value) → LineIs prev line .bad

/-- The settings of the lines: the name of the option (with the section) and the value.  `sec` is the section; `prev` is the name of the
last setting in it, if there is one. -/
inductive Reads : Str → Str → List Str → List (Str × Str) → Prop where
  | nil {sec prev} : Reads sec prev [] []
  | skip {sec prev l ls r} : LineIs (decide (prev ≠ [])) l .skip → Reads sec prev ls r → Reads sec prev (l :: ls) r
  | more {sec prev l ls r v} : LineIs (decide (prev ≠ [])) l (.more v) → Reads sec prev ls r → Reads sec prev (l :: ls) ((sec ++ '.' :: prev, v) :: r)
  | sect {sec prev l ls r s} : LineIs (decide (prev ≠ [])) l (.sect s) → Reads (s.take 49) [] ls r → Reads sec prev (l :: ls) r
  | setting {sec prev l ls r n v} : LineIs (decide (prev ≠ [])) l (.setting n v) → Reads sec (n.take 49) ls r →
      Reads sec prev (l :: ls) ((sec ++ '.' :: n, v) :: r)

/-- There is a line that is neither of these. -/
inductive Broken : Str → Str → List Str → Prop where
  | here {sec prev l ls} : LineIs (decide (prev ≠ [])) l .bad → Broken sec prev (l :: ls)
  | skip {sec prev l ls} : LineIs (decide (prev ≠ [])) l .skip → Broken sec prev ls → Broken sec prev (l :: ls)
  | more {sec prev l ls v} : LineIs (decide (prev ≠ [])) l (.more v) → Broken sec prev ls → Broken sec prev (l :: ls)
  | sect {sec prev l ls s} : LineIs (decide (prev ≠ [])) l (.sect s) → Broken (s.take 49) [] ls → Broken sec prev (l :: ls)
  | setting {sec prev l ls n v} : LineIs (decide (prev ≠ [])) l (.setting n v) → Broken sec (n.take 49) ls → Broken sec prev (l :: ls)

/-- The text consists of these lines; the last one may have no newline. -/
inductive IsLines : Str → List Str → Prop where
  | nil : IsLines [] []
  | last {l} : l ≠ [] → '\n' ∉ l → IsLines l [l]
  | cons {l t ls} : '\n' ∉ l → IsLines t ls → IsLines (l ++ '\n' :: t) (l :: ls)

/-- No line is too long, or has a NUL byte in it. -/
def Fits (ls : List Str) : Prop := ∀ l ∈ ls, l.length ≤ 198 ∧ '\x00' ∉ l

/-- The lines of a file.  There may be a BOM before them. -/
inductive FileLines : Str → List Str → Prop where
  | plain {text ls} : IsLines text ls → Fits ls → text.take 3 ≠ bom → FileLines text ls
  | bom {text l ls} : IsLines text (l :: ls) → Fits (l :: ls) → l.length ≤ 195 → FileLines (bom ++ text) (l :: ls)

/-- The kinds of options and what can be their values. -/
inductive Allowed : Valid → Str → Prop where
  | number {v} : (∀ c ∈ v, '0' ≤ c ∧ c ≤ '9') → Allowed .number v
  | on {v} : v = "1".toList ∨ v = "true".toList ∨ v = "yes".toList → Allowed .flag v
  | off {v} : v = "0".toList ∨ v = "false".toList ∨ v = "no".toList → Allowed .flag v
  | color {v} : v = "never".toList ∨ v = "always".toList ∨ v = "auto".toList → Allowed .color v

/-- There is an option of that name and kind. -/
def Known (e : Env) (opt : Str) (k : Valid) : Prop := ∃ d, (opt, d, k) ∈ options e

/-- What a file says: these settings, in their order.  A file that cannot be opened says nothing. -/
def Says (e : Env) (path : Str) (r : List (Str × Str)) : Prop :=
  match e.files path with
  | none => r = []
  | some text => ∃ ls, FileLines text ls ∧ Reads [] [] ls r

/-- The file has a line that cannot be understood. -/
def Garbled (e : Env) (path : Str) : Prop := ∃ text ls, e.files path = some text ∧ FileLines text ls ∧ Broken [] [] ls

/-- The path of the user's option file. -/
def HomePath (e : Env) (path : Str) : Prop :=
  match e.home with
  | none => path = []
  | some h => path = h ++ "/.tupoptions".toList ∧ path.length < 4096

/-- The argument gives the option that value. -/
def ArgGives (opt : Str) (a v : Str) : Prop := Arg a opt v

/-- The setting of a file gives the option that value. -/
def FileGives (opt : Str) (s : Str × Str) (v : Str) : Prop := s = (opt, v)

/-- Where the value of an option is from. -/
inductive Source where
  | command | project | user | system | default
deriving DecidableEq

/-- The value of an option: from the command line, else from the project's file, else from the user's, else from the system's,
else the default. -/
inductive Value (e : Env) (args : List Str) (project user system : List (Str × Str)) (opt : Str) : Source → Str → Prop where
  | command {v} : Last (ArgGives opt) args v → Value e args project user system opt .command v
  | project {v} : Unset (ArgGives opt) args → Last (FileGives opt) project v → Value e args project user system opt .project v
  | user {v} : Unset (ArgGives opt) args → Unset (FileGives opt) project → Last (FileGives opt) user v → Value e args project user system opt .user v
  | system {v} : Unset (ArgGives opt) args → Unset (FileGives opt) project → Unset (FileGives opt) user → Last (FileGives opt) system v →
      Value e args project user system opt .system v
  | default {v k} : Unset (ArgGives opt) args → Unset (FileGives opt) project → Unset (FileGives opt) user → Unset (FileGives opt) system →
      (opt, v, k) ∈ options e → Value e args project user system opt .default v

/-- What is printed for it. -/
def Source.text (home : Str) : Source → Str
  | .command => "(command line overrides)".toList
  | .project => ".tup/options".toList
  | .user => home
  | .system => "/etc/tup/options".toList
  | .default => "default values".toList

/-- No setting of the file has a value that is not allowed. -/
def Sane (e : Env) (r : List (Str × Str)) : Prop := ∀ s ∈ r, ∀ k, Known e s.1 k → Allowed k s.2

end Tup.Options
