import Verif.Model.Main
/- What the arguments on the command line mean. -/
namespace LB.Spec

/-- The options of the program. -/
inductive Switch where
  | help | helpFull | mode (m : Mode) | keywords | quiet | randomize | memory | traceBasic | traceFor | traceLog | version
  deriving DecidableEq, Repr

/-- How each option can be written. -/
def spellings : Switch → List CStr
  | .help => ["--help".toList, "-h".toList, "-?".toList, "/?".toList]
  | .helpFull => ["--help-full".toList, "-hh".toList]
  | .mode .no => []
  | .mode .list => ["--list".toList, "-l".toList]
  | .mode .listNames => ["--list-names".toList, "-n".toList]
  | .mode .parse => ["--parse".toList, "-p".toList]
  | .mode .code => ["--code".toList, "-c".toList]
  | .mode .run => ["--run".toList, "-r".toList]
  | .keywords => ["--keywords-anywhere".toList, "-k".toList]
  | .quiet => ["--quiet".toList, "-q".toList]
  | .randomize => ["--randomize".toList, "-z".toList]
  | .memory => ["--report-memory".toList, "-m".toList]
  | .traceBasic => ["--trace-basic".toList, "-t".toList]
  | .traceFor => ["--trace-for".toList, "-f".toList]
  | .traceLog => ["--trace-log".toList, "-g".toList]
  | .version => ["--version".toList, "-v".toList]

/-- The argument is the option. -/
def Says (arg : CStr) (s : Switch) : Prop := arg ∈ spellings s

/-- The argument is the name of a file: it is no option and does not look like one. -/
def IsFile (arg : CStr) : Prop := arg.head? ≠ some '-' ∧ ¬ Says arg .help

/-- The argument is the name of a file or an option other than those for help. -/
def Usable (arg : CStr) : Prop := IsFile arg ∨ ∃ s, s ≠ .help ∧ s ≠ .helpFull ∧ Says arg s

instance (arg : CStr) (s : Switch) : Decidable (Says arg s) := inferInstanceAs (Decidable (arg ∈ spellings s))
instance (arg : CStr) : Decidable (IsFile arg) := inferInstanceAs (Decidable (_ ∧ _))

/-- How often the generator is seeded from the clock. -/
def seedings (args : List CStr) : Nat := (args.filter (fun a => decide (Says a .randomize))).length

/-- How many files are named. -/
def named (args : List CStr) : Nat := (args.filter (fun a => decide (IsFile a))).length

/-- The generator and the clock after seeding the generator from the clock `n` times. -/
def seeded (env : Env) (w : World) : Nat → World
  | 0 => w
  | n + 1 => { w with rng := env.srand (env.time (w.ticks + n) % 4294967296), ticks := w.ticks + n + 1 }

/-- The options that the arguments ask for: a switch is on if it is given anywhere; of several modes the last counts. -/
structure Understood (args : List CStr) (opt : Options) : Prop where
  file : ∀ f, opt.fileName = some f ↔ f ∈ args ∧ IsFile f
  mode : ∀ m, opt.mode = m ↔ (m = .no ∧ ∀ a ∈ args, ∀ m', ¬ Says a (.mode m')) ∨
    ∃ before a after, args = before ++ a :: after ∧ Says a (.mode m) ∧ ∀ b ∈ after, ∀ m', ¬ Says b (.mode m')
  keywords : opt.keywordsAnywhere = true ↔ ∃ a ∈ args, Says a .keywords
  quiet : opt.quiet = true ↔ ∃ a ∈ args, Says a .quiet
  memory : opt.reportMemory = true ↔ ∃ a ∈ args, Says a .memory
  traceBasic : opt.traceBasic = true ↔ ∃ a ∈ args, Says a .traceBasic
  traceFor : opt.traceFor = true ↔ ∃ a ∈ args, Says a .traceFor
  traceLog : opt.traceLog = true ↔ ∃ a ∈ args, Says a .traceLog
  version : opt.printVersion = true ↔ ∃ a ∈ args, Says a .version

end LB.Spec
