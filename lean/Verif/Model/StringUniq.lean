import Verif.Model.Basics
/- Shared/stringuniq.c: set of strings, unique ignoring case, as a binary tree;
   Shared/stringlist.c: list of strings. -/
namespace LB

/-- `struct node` (Shared/stringuniq.c:9-13); `leaf` is the NULL pointer. -/
inductive Tree where
  | leaf
  | node (s : CStr) (left right : Tree)
  deriving DecidableEq, Repr

/-- `insert_node` (Shared/stringuniq.c:32-42). -/
def insertNode : Tree → CStr → Tree
  | .leaf, s => .node s .leaf .leaf
  | .node t l r, s =>
    let cmp := strcasecmp s t
    if cmp < 0 then .node t (insertNode l s) r
    else if cmp > 0 then .node t l (insertNode r s)
    else .node t l r

/-- `traverse_tree` (Shared/stringuniq.c:44-50): the strings in the order the callback sees them. -/
def traverseTree : Tree → List CStr
  | .leaf => []
  | .node s l r => traverseTree l ++ s :: traverseTree r

/-- `new_unique_strings` followed by `insert_unique_string` for each string and
`traverse_unique_strings` (Shared/stringuniq.c:56-79). -/
def uniqueStrings (ss : List CStr) : List CStr := traverseTree (ss.foldl insertNode .leaf)

/-- `stringlist_append` (Shared/stringlist.c:54-68): new list and index. -/
def stringlistAppend (l : List CStr) (s : CStr) : List CStr × Nat := (l ++ [s], l.length)

/-- `name_entry` (Shared/stringlist.c:70-77). -/
def nameEntry (l : List CStr) (s : CStr) : List CStr × Nat :=
  match l.findIdx? (fun t => strcasecmp t s == 0) with
  | some i => (l, i)
  | none => stringlistAppend l s

end LB
