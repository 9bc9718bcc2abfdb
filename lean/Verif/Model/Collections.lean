/-!
# Models of the standard collections lapex uses

`BTreeSet<T>` and `BTreeMap<K, V>` are modelled as strictly sorted lists.  The order is given by
an injective key into `List Nat` (compared lexicographically), which is how the derived `Ord` instances of the Rust types
used as keys behave (tuples/structs compare field by field, enums by constructor first).
-/

namespace Verif

/-- How a modelled computation can fail: a Rust panic, or the model's recursion budget ran out
(a distinguished value; termination theorems show it does not happen with enough fuel). -/
inductive Err where
  | panic
  | fuel
deriving DecidableEq, Repr

/-- Result of a modelled computation. -/
abbrev Res := Except Err

instance {α : Type} [DecidableEq α] : DecidableEq (Res α)
  | .ok a, .ok b => if h : a = b then isTrue (h ▸ rfl) else isFalse (fun e => h (Except.ok.inj e))
  | .error a, .error b =>
    if h : a = b then isTrue (h ▸ rfl) else isFalse (fun e => h (Except.error.inj e))
  | .ok _, .error _ => isFalse (fun e => nomatch e)
  | .error _, .ok _ => isFalse (fun e => nomatch e)

/-- An order-giving key: stands for a Rust type's (derived) `Ord`. -/
class Key (α : Type) where
  key : α → List Nat
  inj : ∀ a b, key a = key b → a = b

instance : Key Nat where
  key n := [n]
  inj := by intro a b h; simpa using h

instance : Key Char where
  key c := [c.toNat]
  inj := by
    intro a b h
    have h' : a.toNat = b.toNat := by simpa using h
    exact Char.toNat_inj.mp h'

variable {α : Type} [Key α]

/-- `BTreeSet::insert` on a strictly sorted list. -/
def sinsert (a : α) : List α → List α
  | [] => [a]
  | b :: l =>
    if Key.key a = Key.key b then b :: l
    else if Key.key a < Key.key b then a :: b :: l
    else b :: sinsert a l

/-- Strictly ascending lists: the invariant of a `BTreeSet`. -/
def SSorted (l : List α) : Prop := l.Pairwise (fun a b => Key.key a < Key.key b)

/-- `BTreeMap::get` on an association list. -/
def mget? {ν : Type} (k : α) : List (α × ν) → Option ν
  | [] => none
  | (k', v) :: m => if Key.key k = Key.key k' then some v else mget? k m

/-- `BTreeMap::insert` on a strictly sorted association list (replaces the value of a present key). -/
def minsert {ν : Type} (k : α) (v : ν) : List (α × ν) → List (α × ν)
  | [] => [(k, v)]
  | (k', v') :: m =>
    if Key.key k = Key.key k' then (k', v) :: m
    else if Key.key k < Key.key k' then (k, v) :: (k', v') :: m
    else (k', v') :: minsert k v m

/-- `map.entry(k).or_insert(Vec::new()).push(v)` on a strictly sorted association list. -/
def mpush {ν : Type} (k : α) (v : ν) : List (α × List ν) → List (α × List ν)
  | [] => [(k, [v])]
  | (k', vs) :: m =>
    if Key.key k = Key.key k' then (k', vs ++ [v]) :: m
    else if Key.key k < Key.key k' then (k, [v]) :: (k', vs) :: m
    else (k', vs) :: mpush k v m

/-- Strictly ascending keys: the invariant of a `BTreeMap`. -/
def MSorted {ν : Type} (m : List (α × ν)) : Prop := m.Pairwise (fun a b => Key.key a.1 < Key.key b.1)

end Verif
