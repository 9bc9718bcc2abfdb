import Verif.Model.Template

/-! # Specification: templates -/

set_option autoImplicit false

namespace Verif

/-- a marker with the given text between its braces -/
def marker (key : List Char) : List Char := ['/', '*', '{'] ++ key ++ ['}', '*', '/']

/-- the text between the braces of a marker: one line, and the marker ends at its first `}*/` -/
def IsKey (key : List Char) : Prop := '\n' ∉ key ∧ ∀ a b, key ++ ['}', '*', '/'] = a ++ ['}', '*', '/'] ++ b → b = []

/-- a marker starts at the beginning of the text -/
def StartsMarker (text : List Char) : Prop := ∃ key rest, IsKey key ∧ text = marker key ++ rest

/-- no marker starts inside `lit` when it is followed by `rest` -/
def NoMarkerIn (lit rest : List Char) : Prop := ∀ a b, lit = a ++ b → b ≠ [] → ¬ StartsMarker (b ++ rest)

/-- the chars with the Unicode property `White_Space`: tab, line feed, vertical tab, form feed, carriage return, space, next line, no-break space, ogham space mark, the spaces from en quad to
hair space, line separator, paragraph separator, narrow no-break space, medium mathematical space, ideographic space -/
def WhiteSpace (c : Char) : Prop :=
  c.toNat ∈ [0x9, 0xA, 0xB, 0xC, 0xD, 0x20, 0x85, 0xA0, 0x1680, 0x2000, 0x2001, 0x2002, 0x2003, 0x2004, 0x2005, 0x2006, 0x2007, 0x2008, 0x2009, 0x200A, 0x2028, 0x2029, 0x202F, 0x205F, 0x3000]

/-- leading and trailing whitespace removed -/
def IsTrim (key key' : List Char) : Prop :=
  ∃ a b, key = a ++ key' ++ b ∧ (∀ c ∈ a ++ b, WhiteSpace c) ∧ (∀ c, key'.head? = some c → ¬ WhiteSpace c) ∧
    (∀ c, key'.getLast? = some c → ¬ WhiteSpace c)

/-- what writing a template outputs: the text with every marker replaced by what its substitution writes, from left to right; it stops at the first
marker without substitution, and at the first substitution that fails. -/
inductive Rendered (σ : List Char → Option (List Char × Bool)) : List Char → List Char → WriteStatus → Prop
  | plain {text : List Char} : NoMarkerIn text [] → Rendered σ text text .ok
  | marker {lit key key' rest written out : List Char} {status : WriteStatus} : NoMarkerIn lit (marker key ++ rest) → IsKey key → IsTrim key key' →
      σ key' = some (written, true) → Rendered σ rest out status → Rendered σ (lit ++ marker key ++ rest) (lit ++ written ++ out) status
  | failed {lit key key' rest written : List Char} : NoMarkerIn lit (marker key ++ rest) → IsKey key → IsTrim key key' →
      σ key' = some (written, false) → Rendered σ (lit ++ marker key ++ rest) (lit ++ written) .ioError
  | missing {lit key key' rest : List Char} : NoMarkerIn lit (marker key ++ rest) → IsKey key → IsTrim key key' →
      σ key' = none → Rendered σ (lit ++ marker key ++ rest) lit .panic

/-- the markers of a text, from left to right, by their trimmed keys -/
inductive Markers : List Char → List (List Char) → Prop
  | none {text : List Char} : NoMarkerIn text [] → Markers text []
  | some {lit key key' rest : List Char} {ks : List (List Char)} : NoMarkerIn lit (marker key ++ rest) → IsKey key → IsTrim key key' → Markers rest ks →
      Markers (lit ++ marker key ++ rest) (key' :: ks)

end Verif
