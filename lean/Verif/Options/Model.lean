import Verif.Basic

/-! Options: the command line, the option files, the defaults. -/

namespace Tup.Options

/-! The reader of `.ini` files, src/inih/ini.c. -/

/-- `fgets` with a buffer of 200 bytes (`INI_MAX_LINE`, src/inih/ini.h:130; `ini_parse_stream`, src/inih/ini.c:136): pieces that end with a
newline, or after 199 bytes, or at the end of the file.  `left` bytes have room; `cur` is what was read already, the last byte first. -/
def chunks (left : Nat) (cur : Str) : Str → List Str
  | [] => if cur = [] then [] else [cur.reverse]
  | c :: t =>
    if c = '\n' ∨ left ≤ 1 then (c :: cur).reverse :: chunks 199 [] t else chunks (left - 1) (c :: cur) t

/-- The string in a buffer ends with the first NUL. -/
def cstr (s : Str) : Str := s.takeWhile fun c => c ≠ '\x00'

/-- `rstrip`, src/inih/ini.c:48-54 -/
def rstrip (s : Str) : Str := (s.reverse.dropWhile isSpace).reverse

/-- `lskip`, src/inih/ini.c:57-62 -/
def lskip (s : Str) : Str := s.dropWhile isSpace

/-- `find_chars_or_comment`, src/inih/ini.c:67-82: what is before the place that it finds, and what is there.  `was` is `was_space`. -/
def find (chars : Str) (was : Bool) : Str → Str × Str
  | [] => ([], [])
  | c :: t =>
    if c ∈ chars ∨ (was = true ∧ c = ';') then ([], c :: t)
    else
      let (a, b) := find chars (isSpace c) t
      (c :: a, b)

/-- The variables of `ini_parse_stream`, src/inih/ini.c:112-120, and what the handler works on. -/
structure Ini (σ : Type) where
  section_ : Str := []
  prev : Str := []
  lineno : Nat := 0
  error : Nat := 0
  user : σ

/-- A call of the handler, and the number of the line if it is the first one with an error. -/
def Ini.call {σ : Type} (h : Str → Str → Str → σ → σ × Bool) (st : Ini σ) (name value : Str) : Ini σ :=
  let (u, ok) := h st.section_ name value st.user
  { st with user := u, error := if !ok && st.error = 0 then st.lineno else st.error }

/-- src/inih/ini.c:198-201, 223-232 -/
def Ini.bad {σ : Type} (st : Ini σ) : Ini σ := { st with error := if st.error = 0 then st.lineno else st.error }

/-- The bytes of a BOM, src/inih/ini.c:161-163. -/
def bom : Str := [Char.ofNat 0xEF, Char.ofNat 0xBB, Char.ofNat 0xBF]

/-- src/inih/ini.c:159-167: where the line starts, and whether that is after the beginning of the buffer. -/
def start (first : Bool) (line : Str) : Str × Bool :=
  let skip := first && decide (line.take 3 = bom)
  let s := rstrip (if skip then line.drop 3 else line)
  (lskip s, skip || decide (lskip s ≠ s))

/-- One turn of the loop, src/inih/ini.c:157-234.  The sizes of `section` and `prev_name` are 50. -/
def iniLine {σ : Type} (h : Str → Str → Str → σ → σ × Bool) (st : Ini σ) (line : Str) : Ini σ :=
  let st := { st with lineno := st.lineno + 1 }
  let (s, moved) := start (decide (st.lineno = 1)) (cstr line)
  match s with
  | [] => st
  | c :: t =>
    if c = ';' ∨ c = '#' then st
    else if st.prev ≠ [] ∧ moved = true then st.call h st.prev (rstrip (find [] false s).1)
    else if c = '[' then
      match find [']'] false t with
      | (a, ']' :: _) => { st with section_ := a.take 49, prev := [] }
      | _ => st.bad
    else
      match find ['=', ':'] false s with
      | (a, d :: b) =>
        if d = '=' ∨ d = ':' then
          let st := { st with prev := (rstrip a).take 49 }
          st.call h (rstrip a) (rstrip (lskip (find [] false b).1))
        else st.bad
      | (_, []) => st.bad

/-- `ini_parse_stream`, src/inih/ini.c:97-247, with the settings of src/inih/ini.h; `ini_parse_file`, 250-253. -/
def iniParse {σ : Type} (h : Str → Str → Str → σ → σ × Bool) (u : σ) (file : Str) : Ini σ :=
  (chunks 199 [] file).foldl (iniLine h) { user := u }

/-! src/tup/option.c -/

/-- What is allowed as a value: `is_number`, `is_flag`, `is_color`, src/tup/option.c:465-502. -/
inductive Valid where
  | number | flag | color
deriving DecidableEq

def Valid.check : Valid → Str → Bool
  | .number, v => v.all fun c => decide ('0' ≤ c) && decide (c ≤ '9')
  | .flag, v => v ∈ ["true".toList, "yes".toList, "false".toList, "no".toList, "1".toList, "0".toList]
  | .color, v => v ∈ ["never".toList, "always".toList, "auto".toList]

/-- What the defaults depend on: `cpu_number`, `get_console_width`, `stdout_isatty`, src/tup/option.c:504-568, and the environment
variable `HOME`; and the option files (none: cannot be opened). -/
structure Env where
  cpus : Str
  width : Str
  tty : Bool
  home : Option Str
  files : Str → Option Str

/-- `options`, src/tup/option.c:79-104: name, default, what is allowed. -/
def options (e : Env) : List (Str × Str × Valid) := [
  ("updater.num_jobs".toList, e.cpus, .number),
  ("updater.keep_going".toList, "0".toList, .flag),
  ("updater.full_deps".toList, "0".toList, .flag),
  ("updater.warnings".toList, "1".toList, .flag),
  ("display.color".toList, "auto".toList, .color),
  ("display.width".toList, e.width, .number),
  ("display.progress".toList, if e.tty then "1".toList else "0".toList, .flag),
  ("display.job_numbers".toList, "1".toList, .flag),
  ("display.job_time".toList, "1".toList, .flag),
  ("display.quiet".toList, "0".toList, .flag),
  ("monitor.autoupdate".toList, "0".toList, .flag),
  ("monitor.autoparse".toList, "0".toList, .flag),
  ("monitor.foreground".toList, "0".toList, .flag),
  ("db.sync".toList, "1".toList, .flag),
  ("graph.dirs".toList, "0".toList, .flag),
  ("graph.ghosts".toList, "0".toList, .flag),
  ("graph.environment".toList, "0".toList, .flag),
  ("graph.combine".toList, "0".toList, .flag)]

/-- A `struct vardb` as a map; `vardb_set` (src/tup/vardb.c, see `Verif/Tree`) replaces the value. -/
abbrev Vars := Str → Option Str

def Vars.set (m : Vars) (k v : Str) : Vars := fun x => if x = k then some v else m x

/-- The entry of an option in `options`. -/
def lookup (opt : Str) : List (Str × Str × Valid) → Option (Str × Valid)
  | [] => none
  | (n, d, k) :: l => if n = opt then some (d, k) else lookup opt l

/-- `parse_cmdline_options`, src/tup/option.c:232-275, for one argument: none is an error. -/
def cmdArg (m : Vars) (a : Str) : Option Vars :=
  if a = "--keep-going".toList ∨ a = "-k".toList then some (m.set "updater.keep_going".toList "1".toList)
  else if a = "--no-keep-going".toList then some (m.set "updater.keep_going".toList "0".toList)
  else if a.take 2 = "-j".toList then some (m.set "updater.num_jobs".toList (a.drop 2))
  else if a = "--no-sync".toList then some (m.set "db.sync".toList "0".toList)
  else if a.take 15 = "--display-color".toList then
    match a.drop 15 with
    | '=' :: v => if Valid.color.check v then some (m.set "display.color".toList v) else none
    | _ => none
  else some m

/-- All arguments. -/
def cmdline : List Str → Vars → Option Vars
  | [], m => some m
  | a :: l, m =>
    match cmdArg m a with
    | none => none
    | some m => cmdline l m

/-- `parse_callback`, src/tup/option.c:410-439. -/
def callback (e : Env) (sec name value : Str) (m : Vars) : Vars × Bool :=
  let opt := sec ++ '.' :: name
  if opt.length ≥ 256 then (m, false)
  else
    match lookup opt (options e) with
    | some (_, k) => if k.check value then (m.set opt value, true) else (m, false)
    | none => (m, true)

/-- `parse_option_file`, src/tup/option.c:441-463.  (Read errors are not modelled.) -/
def optionFile (e : Env) (path : Str) : Option Vars :=
  match e.files path with
  | none => some fun _ => none
  | some text =>
    let st := iniParse (callback e) (fun _ => none) text
    if st.error = 0 then some st.user else none

/-- `init_home_loc`, src/tup/option.c:570-597: `home_loc` (of `PATH_MAX` bytes); it is empty if there is no `HOME`. -/
def homeLoc (e : Env) : Option Str :=
  match e.home with
  | none => some []
  | some h => if (h ++ "/.tupoptions".toList).length ≥ 4096 then none else some (h ++ "/.tupoptions".toList)

/-- `locations`, src/tup/option.c:55-66: the maps in their order, with the names. -/
abbrev Locations := List (Str × Vars)

/-- `tup_option_init`, src/tup/option.c:277-318. -/
def init (e : Env) (args : List Str) : Option Locations :=
  match homeLoc e with
  | none => none
  | some home =>
    match cmdline args (fun _ => none), optionFile e ".tup/options".toList, optionFile e home, optionFile e "/etc/tup/options".toList with
    | some a, some b, some c, some d =>
      some [("(command line overrides)".toList, a), (".tup/options".toList, b), (home, c), ("/etc/tup/options".toList, d)]
    | _, _, _, _ => none

/-- The first of the locations that has the option, src/tup/option.c:356-362, 396-404. -/
def firstOf (opt : Str) : Locations → Option (Str × Str)
  | [] => none
  | (f, m) :: l =>
    match m opt with
    | some v => some (v, f)
    | none => firstOf opt l

/-- `tup_option_get_string`, src/tup/option.c:348-375; none: there is no such option.  The window is not resized. -/
def getString (e : Env) (locs : Locations) (opt : Str) : Option Str :=
  match firstOf opt locs with
  | some (v, _) => some v
  | none => (lookup opt (options e)).map fun x => x.1

/-- `tup_option_show`, src/tup/option.c:389-407: what is printed for each option. -/
def show_ (e : Env) (locs : Locations) : List (Str × Str × Str) :=
  (options e).map fun (n, d, _) =>
    match firstOf n locs with
    | some (v, f) => (n, v, f)
    | none => (n, d, "default values".toList)

/-- The digits of a number, from the left. -/
def digits (acc : Nat) : Str → Nat
  | [] => acc
  | c :: t => if '0' ≤ c ∧ c ≤ '9' then digits (acc * 10 + (c.toNat - '0'.toNat)) t else acc

/-- `atoi`: none where the number is not an `int`, and the C standard leaves undefined what happens. -/
def atoi (s : Str) : Option Int :=
  let t := s.dropWhile isSpace
  let v : Int := match t with
    | '-' :: t => -(digits 0 t : Int)
    | '+' :: t => digits 0 t
    | t => digits 0 t
  if -2147483648 ≤ v ∧ v ≤ 2147483647 then some v else none

/-- `tup_option_get_flag`, src/tup/option.c:328-341 -/
def getFlag (e : Env) (locs : Locations) (opt : Str) : Option Int :=
  match getString e locs opt with
  | none => none
  | some v =>
    if v = "true".toList then some 1 else if v = "yes".toList then some 1
    else if v = "false".toList then some 0 else if v = "no".toList then some 0
    else atoi v

/-- `tup_option_get_int`, src/tup/option.c:343-346 -/
def getInt (e : Env) (locs : Locations) (opt : Str) : Option Int := (getString e locs opt).bind atoi

/-- `num_jobs`, src/tup/updater.c:148, 178-185; `MAX_JOBS` is 65535. -/
def numJobs (e : Env) (locs : Locations) : Option Int :=
  (getInt e locs "updater.num_jobs".toList).map fun n => if n < 1 then 1 else if n > 65535 then 65535 else n

end Tup.Options
