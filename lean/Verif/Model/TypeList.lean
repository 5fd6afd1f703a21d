import Verif.Model.Basic
/-
The compile-time list algebra of /repo/include/rtti/typelist.h. A `type_list<T...>` is a `List`; a failing
`static_assert` or a missing member is `none`. Each function follows the recursion of its template.
-/
set_option autoImplicit false
namespace Rtti.Mpl

section
variable {α : Type} [DecidableEq α]

/-- `typelist_size`, typelist.h:44-52 (`sizeof...`) -/
def size : List α → Nat
  | [] => 0
  | _ :: t => size t + 1

/-- `typelist_isempty`, typelist.h:57-63 -/
def isEmpty (l : List α) : Bool := size l = 0

/-- `typelist_first`, typelist.h:69-84 -/
def first : List α → Option α
  | h :: _ => some h
  | [] => none

/-- `typelist_last`, typelist.h:86-103 -/
def last : List α → Option α
  | [h] => some h
  | _ :: t => last t
  | [] => none

/-- `typelist_get`, typelist.h:105-123 -/
def get : List α → Nat → Option α
  | h :: _, 0 => some h
  | _ :: t, i + 1 => get t i
  | [], _ => none

/-- `typelist_indexof_helper`, typelist.h:126-144 -/
def indexOfFrom (v : α) : List α → Int → Int
  | h :: t, i => if h = v then i else indexOfFrom v t (i + 1)
  | [], _ => -1

/-- `typelist_indexof`, typelist.h:146-150 -/
def indexOf (l : List α) (v : α) : Int := indexOfFrom v l 0

/-- `typelist_exists`, typelist.h:152-157 -/
def exist (l : List α) (v : α) : Bool := indexOf l v ≥ 0

/-- `typelist_concat`, typelist.h:160-167 (pack expansion `T1..., T2...`) -/
def concat (a b : List α) : List α := a ++ b

/-- `typelist_pushfront`, typelist.h:169-176 -/
def pushFront (l v : List α) : List α := v ++ l

/-- `typelist_popfront`, typelist.h:178-191 -/
def popFront : List α → Option (List α)
  | _ :: t => some t
  | [] => none

/-- `typelist_pushback`, typelist.h:193-200 -/
def pushBack (l v : List α) : List α := l ++ v

/-- `typelist_popback_helper`, typelist.h:202-226 -/
def popBackFrom (p : List α) : List α → Option (List α)
  | [_] => some p
  | h :: t => popBackFrom (p ++ [h]) t
  | [] => none

def popBack (l : List α) : Option (List α) := popBackFrom [] l

/-- `typelist_remove_helper`, typelist.h:229-253 -/
def removeFrom (v : α) (p : List α) : List α → List α
  | h :: t => if h = v then p ++ t else removeFrom v (p ++ [h]) t
  | [] => p

def remove (l : List α) (v : α) : List α := removeFrom v [] l

/-- `typelist_removeall_helper`, typelist.h:256-280 -/
def removeAllFrom (v : α) (p : List α) : List α → List α
  | h :: t => if h = v then removeAllFrom v p t else removeAllFrom v (p ++ [h]) t
  | [] => p

def removeAll (l : List α) (v : α) : List α := removeAllFrom v [] l

/-- `typelist_remove_duplicates_helper`, typelist.h:283-307 -/
def removeDuplicatesFrom (p : List α) : List α → List α
  | h :: t => if exist t h then removeDuplicatesFrom p t else removeDuplicatesFrom (p ++ [h]) t
  | [] => p

def removeDuplicates (l : List α) : List α := removeDuplicatesFrom [] l

/-- `typelist_unorderedequal`, typelist.h:310-335 (the more specialised case comes first) -/
def unorderedEqual : List α → List α → Bool
  | _ :: _, [] => false
  | h :: t, l => if exist l h then unorderedEqual t (remove l h) else false
  | [], _ :: _ => false
  | [], [] => true

/-- `typelist_map`, typelist.h:363-369 -/
def map {β : Type} (F : α → β) : List α → List β
  | h :: t => F h :: map F t
  | [] => []

/-- `typelist_filter_helper`, typelist.h:379-398 -/
def filterFrom (F : α → Bool) (p : List α) : List α → List α
  | h :: t => if F h then filterFrom F (p ++ [h]) t else filterFrom F p t
  | [] => p

def filter (l : List α) (F : α → Bool) : List α := filterFrom F [] l

/-- `typelist_foldl`, typelist.h:412-423 -/
def foldl (F : α → α → α) (I : α) : List α → α
  | h :: t => foldl F (F I h) t
  | [] => I

/-- `typelist_foldr`, typelist.h:438-449. The non-empty case *inherits from* `F<H, R>::type`, so its member
    `type` is the member `type` of that class (`member`; `none`: it has none, the program is ill-formed). -/
def foldr (member : α → Option α) (F : α → α → α) (I : α) : List α → Option α
  | h :: t => (foldr member F I t).bind fun r => member (F h r)
  | [] => some I

end

/-- `make_index_sequence`, typelist.h:457-463 -/
def makeIndexSequence : Nat → List Nat → List Nat
  | n + 1, ints => makeIndexSequence n (n :: ints)
  | 0, ints => ints

/-- types, as far as the templates below look into them -/
inductive Ty
  | atom (n : Nat)
  | list (l : List Ty)
  | tuple (l : List Ty)

/-- `index_sequence_for`, typelist.h:465-478: a single `type_list` or `std::tuple` argument is unpacked -/
def indexSequenceFor : List Ty → List Nat
  | [.list l] => indexSequenceFor l
  | [.tuple l] => indexSequenceFor l
  | args => makeIndexSequence (size' args) []
where
  size' : List Ty → Nat
    | [] => 0
    | _ :: t => size' t + 1

mutual
/-- `typelist_runtime_helper`, typelist.h:340-352 -/
def runtime : Ty → Ty
  | .list l => .tuple (runtimes l)
  | t => t
def runtimes : List Ty → List Ty
  | [] => []
  | t :: ts => runtime t :: runtimes ts
end

end Rtti.Mpl
