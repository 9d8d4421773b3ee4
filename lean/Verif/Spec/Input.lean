import Verif.Spec.Numbers
import Verif.Spec.Branches
/- What INPUT means for scalar variables. -/
namespace LB.Spec

/-- A scalar variable in the list of INPUT. -/
inductive Item where
  | num (id : Nat)
  | str (id : Nat)

/-- The variable of an item. -/
def Item.id : Item → Nat
  | .num id => id
  | .str id => id

/-- The item names a variable of its type. -/
def Item.Ok (st : SymTab) : Item → Prop
  | .num id => NumVar st id
  | .str id => StrVar st id

/-- The code that fills an item. -/
def Item.code : Item → Inst
  | .num id => .inputNum id 0
  | .str id => .inputStr id 0

/-- The code of the items of INPUT and of what follows the last one. -/
def itemsCode (i : Item) : List Item → List Inst
  | [] => [i.code, .inputEnd]
  | j :: js => i.code :: .inputSep :: itemsCode j js

/-- The machine is about to execute INPUT with a prompt and the items `i` and `more`. -/
def InputAt (vm : VM) (prompt : Option CStr) (i : Item) (more : List Item) : Prop :=
  At vm (.inputBuf prompt) ∧ ∀ k c, (itemsCode i more)[k]? = some c → instAt vm (vm.cs.pc + 1 + k) = some c

/-- The fields of an input line: what stands between its commas, up to the end of the line. -/
def fields : CStr → List CStr
  | [] => [[]]
  | c :: s =>
    if c = '\n' then [[]]
    else if c = ',' then [] :: fields s
    else match fields s with
      | [] => [[c]]
      | f :: fs => (c :: f) :: fs

/-- The fields can be assigned to the items: there are enough, and numeric variables get numbers. -/
def Accepts : List Item → List CStr → Prop
  | [], _ => True
  | .num _ :: is, f :: fs => (∃ x, Numeric f x) ∧ Accepts is fs
  | .str _ :: is, _ :: fs => Accepts is fs
  | _ :: _, [] => False

/-- The table `st'` is `st` after assigning the fields to the items, one after the other. -/
inductive Filled : List Item → List CStr → SymTab → SymTab → Prop
  | nil (fs st) : Filled [] fs st st
  | num {id f x fs is st st1 st'} : Numeric f x → LB.Spec.num st1 id = x → SameBut id st st1 → Filled is fs st1 st' →
      Filled (.num id :: is) (f :: fs) st st'
  | str {id f fs is st st1 st'} : LB.Spec.str st1 id = f → SameBut id st st1 → Filled is fs st1 st' →
      Filled (.str id :: is) (f :: fs) st st'

/-- The tables have the same names and differ at most in variables among the items. -/
def OnlyItems (is : List Item) (st st' : SymTab) : Prop :=
  st'.hash = st.hash ∧ st'.nextId = st.nextId ∧ ∀ j, (∀ i ∈ is, i.id ≠ j) → st'.psym[j]? = st.psym[j]?

/-- Everything is as before except for the variables among the items, the text read and written, and what INPUT
remembers of the line; the machine stands at `pc` of the same line. -/
def InputOnly (is : List Item) (pc : Nat) (vm vm' : VM) : Prop :=
  OnlyItems is vm.st vm'.st ∧ vm' = { vm with
    st := vm'.st, input := vm'.input, inp := vm'.inp, inputPc := vm'.inputPc, cs := { vm.cs with pc := pc },
    world := { vm.world with out := vm'.world.out, stdin := vm'.world.stdin } }

/-- `line` is the first line of the input that the items accept, and `rest` is the input after it. -/
inductive FirstAccepted (is : List Item) : CStr → CStr → CStr → Prop
  | now {s buf rest} : fgets 128 s = some (buf, rest) → Accepts is (fields (cstr buf)) → FirstAccepted is s (cstr buf) rest
  | later {s buf r line rest} : fgets 128 s = some (buf, r) → ¬ Accepts is (fields (cstr buf)) →
      FirstAccepted is r line rest → FirstAccepted is s line rest

/-- What INPUT says about a line that is not accepted. -/
def complaint (t : CStr) : Prop := t = "* Invalid input *\n".toList ∨ t = "* More input items are expected *\n".toList

/-- What INPUT asks. -/
def question (vm : VM) (prompt : Option CStr) : CStr :=
  prompt.getD [] ++ (if vm.inputPrompt then "? ".toList else [])

end LB.Spec
