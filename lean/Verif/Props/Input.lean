import Verif.Proofs.Input
/- C31, C32: INPUT. -/
namespace LB
open LB.Spec

/-- C31.  A line with enough fields, numbers where numbers are asked for, is assigned to the items from left to right;
nothing else changes.  A message says that input was discarded exactly when there are more fields than items. -/
theorem C31_accepted (env : Env) (vm : VM) (prompt : Option CStr) (i : Item) (more : List Item) (buf rest : CStr)
    (h : InputAt vm prompt i more) (hok : ∀ j ∈ i :: more, j.Ok vm.st) (hl : fgets 128 vm.world.stdin = some (buf, rest))
    (ha : Accepts (i :: more) (fields (cstr buf))) :
    ∃ n vm' extra, after env n vm = some vm' ∧
      Filled (i :: more) (fields (cstr buf)) vm.st vm'.st ∧ InputOnly (i :: more) (vm.cs.pc + 1 + (itemsCode i more).length) vm vm' ∧
      vm'.world.stdin = rest ∧ vm'.world.out = vm.world.out ++ question vm prompt ++ extra ∧
      (extra = [] ∨ extra = "* Extra input was discarded *\n".toList) ∧
      (extra = [] ↔ (fields (cstr buf)).length ≤ (i :: more).length) := by
  obtain ⟨n, vm', extra, h1, h2, h3, h4, h5, h6, h7, h8⟩ :=
    (attempt_line env vm prompt i more (cstr buf) rest h hok (by rw [hl]) (by rw [hl])).1 ha
  refine ⟨n, vm', extra, h1, h2, h3, h4, h5, h6, fun he => ?_, h8 (oneLine_fgets hl)⟩
  exact Nat.le_of_not_lt (fun hlt => h7 hlt he)

/-- C31, for scalar variables.  After any other line a complaint is printed and the same INPUT is about to be executed
again; apart from the variables of the INPUT nothing has changed. -/
theorem C31_refused_partial (env : Env) (vm : VM) (prompt : Option CStr) (i : Item) (more : List Item) (buf rest : CStr)
    (h : InputAt vm prompt i more) (hok : ∀ j ∈ i :: more, j.Ok vm.st) (hl : fgets 128 vm.world.stdin = some (buf, rest))
    (ha : ¬ Accepts (i :: more) (fields (cstr buf))) :
    ∃ n vm' msg, after env n vm = some vm' ∧ InputOnly (i :: more) vm.cs.pc vm vm' ∧ InputAt vm' prompt i more ∧
      vm'.world.stdin = rest ∧ vm'.world.out = vm.world.out ++ question vm prompt ++ msg ∧ complaint msg := by
  obtain ⟨n, vm', msg, h1, -, h2, h3, -, -, h4, h5, h6⟩ :=
    (attempt_line env vm prompt i more (cstr buf) rest h hok (by rw [hl]) (by rw [hl])).2 ha
  exact ⟨n, vm', msg, h1, h2, h3, h4, h5, h6⟩

/-- C31, for scalar variables.  However many lines are refused, INPUT goes on until it gets the first acceptable line;
then its variables hold the fields of that line, and nothing else has changed. -/
theorem C31_until_accepted_partial (env : Env) (vm : VM) (prompt : Option CStr) (i : Item) (more : List Item) (line rest : CStr)
    (h : InputAt vm prompt i more) (hok : ∀ j ∈ i :: more, j.Ok vm.st)
    (hl : FirstAccepted (i :: more) vm.world.stdin line rest) :
    ∃ n vm' st1, after env n vm = some vm' ∧ OnlyItems (i :: more) vm.st st1 ∧ Filled (i :: more) (fields line) st1 vm'.st ∧
      InputOnly (i :: more) (vm.cs.pc + 1 + (itemsCode i more).length) vm vm' ∧ vm'.world.stdin = rest := by
  generalize hs : vm.world.stdin = s at hl
  induction hl generalizing vm with
  | now hf ha =>
    rw [← hs] at hf
    obtain ⟨n, vm', extra, h1, h2, h3, h4, -⟩ := C31_accepted env vm prompt i more _ _ h hok hf ha
    exact ⟨n, vm', vm.st, h1, OnlyItems.refl .., h2, h3, h4⟩
  | later hf ha _ ih =>
    rw [← hs] at hf
    obtain ⟨n, vm', msg, h1, -, h2, h3, h3', -, h4, -⟩ :=
      (attempt_line env vm prompt i more _ _ h hok (by rw [hf]) (by rw [hf])).2 ha
    obtain ⟨n2, vm'', st1, j1, j2, j3, j4, j5⟩ := ih vm' h3 h3' h4
    have hpc : vm'.cs.pc = vm.cs.pc := by rw [h2.2]
    rw [hpc] at j4
    exact ⟨n + n2, vm'', st1, after_add env h1 j1, h2.1.trans j2, j3, h2.trans j4 (fun _ h => h), j5⟩

/-- C32, in part.  At the end of the input the line read last is used again; if it is acceptable INPUT finishes with
it. -/
theorem C32_finishes_partial (env : Env) (vm : VM) (prompt : Option CStr) (i : Item) (more : List Item)
    (h : InputAt vm prompt i more) (hok : ∀ j ∈ i :: more, j.Ok vm.st) (hl : vm.world.stdin = [])
    (ha : Accepts (i :: more) (fields vm.input)) :
    ∃ n vm', after env n vm = some vm' ∧ Filled (i :: more) (fields vm.input) vm.st vm'.st ∧
      InputOnly (i :: more) (vm.cs.pc + 1 + (itemsCode i more).length) vm vm' := by
  obtain ⟨n, vm', extra, h1, h2, h3, -⟩ :=
    (attempt_line env vm prompt i more vm.input [] h hok (by rw [hl]; rfl) (by rw [hl]; rfl)).1 ha
  exact ⟨n, vm', h1, h2, h3⟩

/-- C32 fails otherwise.  At the end of the input, if the line read last is not acceptable, INPUT never finishes: it is
executed again and again, however many steps are made, and prints without end. -/
theorem C32_violated (env : Env) (vm : VM) (prompt : Option CStr) (i : Item) (more : List Item)
    (h : InputAt vm prompt i more) (hok : ∀ j ∈ i :: more, j.Ok vm.st) (hl : vm.world.stdin = [])
    (ha : ¬ Accepts (i :: more) (fields vm.input)) :
    ∀ k, ∃ n vm', k ≤ n ∧ after env n vm = some vm' ∧ InputAt vm' prompt i more ∧
      vm.world.out.length + k ≤ vm'.world.out.length := by
  intro k
  induction k generalizing vm with
  | zero => exact ⟨0, vm, Nat.le_refl _, rfl, h, Nat.le_refl _⟩
  | succ k ih =>
    obtain ⟨n, vm', msg, h1, hn, h2, h3, h4, h5, h6, h7, h8⟩ :=
      (attempt_line env vm prompt i more vm.input [] h hok (by rw [hl]; rfl) (by rw [hl]; rfl)).2 ha
    obtain ⟨n2, vm'', hk, j1, j2, j3⟩ := ih vm' h3 h4 h6 (by rw [h5]; exact ha)
    refine ⟨n + n2, vm'', by omega, after_add env h1 j1, j2, ?_⟩
    have : 1 ≤ msg.length := by rcases h8 with rfl | rfl <;> decide
    have := congrArg List.length h7
    simp only [List.length_append] at this
    omega

private def askDemo (stdin old : String) : VM :=
  { Demo.machine [.inputBuf none, .inputNum 0 0, .inputSep, .inputStr 1 0, .inputEnd]
      [Demo.numSym "X" 0 (.fin 3), Demo.strSym "S$" 1 "old"] with
    input := old.toList, world := { stdin := stdin.toList } }

private theorem askDemo_at (stdin old : String) : InputAt (askDemo stdin old) none (.num 0) [.str 1] := by
  refine ⟨⟨.stored, _, rfl, rfl, rfl⟩, ?_⟩
  intro k c h
  match k, h with
  | 0, h => cases h; rfl
  | 1, h => cases h; rfl
  | 2, h => cases h; rfl
  | 3, h => cases h; rfl

example : InputAt (askDemo "7\nx,y\n-12.5E-1,A B,C\n10 PRINT\n" "") none (.num 0) [.str 1] ∧
    (∀ j ∈ [Item.num 0, Item.str 1], j.Ok (askDemo "7\nx,y\n-12.5E-1,A B,C\n10 PRINT\n" "").st) := by
  refine ⟨askDemo_at .., ?_⟩
  intro j hj
  simp only [List.mem_cons, List.not_mem_nil, or_false] at hj
  rcases hj with rfl | rfl
  · exact ⟨_, rfl, rfl, rfl⟩
  · exact ⟨_, rfl, rfl, rfl, fun _ => rfl⟩

private theorem notNumber (s : CStr) (h : ∀ x, V.convert s ≠ some (x, [])) : ¬ ∃ x, Numeric s x :=
  fun ⟨x, hx⟩ => h x ((convert_whole s x).2 hx)

example : FirstAccepted [.num 0, .str 1] "7\nx,y\n-1,A B,C\n10 PRINT\n".toList "-1,A B,C\n".toList "10 PRINT\n".toList := by
  refine .later (buf := "7\n".toList) (r := "x,y\n-1,A B,C\n10 PRINT\n".toList) (by decide) ?_
    (.later (buf := "x,y\n".toList) (r := "-1,A B,C\n10 PRINT\n".toList) (by decide) ?_
      (.now (buf := "-1,A B,C\n".toList) (by decide) ?_))
  · rw [show fields (cstr "7\n".toList) = ["7".toList] by decide]
    exact fun h => h.2
  · rw [show fields (cstr "x,y\n".toList) = ["x".toList, "y".toList] by decide]
    exact fun h => notNumber _ (fun x h => by rw [show V.convert "x".toList = none by decide] at h; cases h) h.1
  · rw [show fields (cstr "-1,A B,C\n".toList) = ["-1".toList, "A B".toList, "C".toList] by decide]
    exact ⟨⟨_, (convert_whole _ _).1 (show V.convert "-1".toList = some (.fin (-1), []) by decide +kernel)⟩, trivial⟩

/-- The empty buffer of a new session is not acceptable for a numeric INPUT. -/
example : (askDemo "" "").world.stdin = [] ∧ ¬ Accepts [.num 0, .str 1] (fields (askDemo "" "").input) :=
  ⟨rfl, fun h => notNumber [] (fun x h => by cases h) h.1⟩

example : (askDemo "" "5,x\n").world.stdin = [] ∧ Accepts [.num 0, .str 1] (fields (askDemo "" "5,x\n").input) :=
  ⟨rfl, ⟨_, (convert_whole _ _).1 (show V.convert "5".toList = some (.fin 5, []) by decide +kernel)⟩, trivial⟩

private def times (n : Nat) (s : String) : String := String.join (List.replicate n s)

set_option maxRecDepth 100000 in
/-- C31 fails for array elements: every refused line leaves the subscripts behind; after eight lines refused for an
element with two subscripts INPUT stops with an error although a good line follows, and later expressions fail as
well. -/
theorem C31_violated :
    Demo.shows ("INPUT A(1,2)\n" ++ times 7 "\n" ++ "5\nPRINT A(1,2)\n") = .ok
      ("> " ++ times 7 "? * Invalid input *\n" ++ "? >  5 \n").toList ∧
    Demo.shows ("INPUT A(1,2)\n" ++ times 8 "\n" ++ "5\nPRINT \"done\"\nPRINT A(1,2)\n") = .ok
      ("> " ++ times 8 "? * Invalid input *\n" ++ "? > done\n> ").toList := by decide +kernel

end LB
