import Verif.Spec.JsonText

/-! # The grammar of JSON (RFC 8259), with the meaning of its texts

Nothing here refers to how the texts are read. -/

namespace LogCache.Spec

/-- The hexadecimal digits. -/
def hexTable : List (Char × Nat) :=
  [('0', 0), ('1', 1), ('2', 2), ('3', 3), ('4', 4), ('5', 5), ('6', 6), ('7', 7), ('8', 8), ('9', 9),
    ('a', 10), ('b', 11), ('c', 12), ('d', 13), ('e', 14), ('f', 15),
    ('A', 10), ('B', 11), ('C', 12), ('D', 13), ('E', 14), ('F', 15)]

/-- Four hexadecimal digits and their value. -/
def Hex4 (t : Str) (n : Nat) : Prop :=
  ∃ a b c d x y z w, t = [a, b, c, d] ∧ (a, x) ∈ hexTable ∧ (b, y) ∈ hexTable ∧ (c, z) ∈ hexTable ∧
    (d, w) ∈ hexTable ∧ n = x * 4096 + y * 256 + z * 16 + w

/-- The escapes of one letter, and what they mean. -/
def escapeTable : List (Char × Char) :=
  [('"', '"'), ('\\', '\\'), ('/', '/'), ('b', Char.ofNat 8), ('f', Char.ofNat 12), ('n', Char.ofNat 10),
    ('r', Char.ofNat 13), ('t', Char.ofNat 9)]

/-- The first and the second half of a pair of surrogates. -/
def HighHalf (n : Nat) : Prop := 0xD800 ≤ n ∧ n ≤ 0xDBFF
def LowHalf (n : Nat) : Prop := 0xDC00 ≤ n ∧ n ≤ 0xDFFF

/-- `StrText t v`: between quotes, `t` stands for the text `v`.  Half a pair stands for the
replacement character. -/
inductive StrText : Str → Str → Prop
  | nil : StrText [] []
  | plain {c : Char} {t v : Str} : c ≠ '"' → c ≠ '\\' → 32 ≤ c.toNat → StrText t v → StrText (c :: t) (c :: v)
  | escape {e c : Char} {t v : Str} : (e, c) ∈ escapeTable → StrText t v → StrText ('\\' :: e :: t) (c :: v)
  | unit {h : Str} {n : Nat} {t v : Str} : Hex4 h n → ¬ HighHalf n → ¬ LowHalf n → StrText t v →
      StrText ('\\' :: 'u' :: (h ++ t)) (Char.ofNat n :: v)
  | pair {h l : Str} {n m : Nat} {t v : Str} : Hex4 h n → HighHalf n → Hex4 l m → LowHalf m → StrText t v →
      StrText ('\\' :: 'u' :: (h ++ '\\' :: 'u' :: (l ++ t))) (Char.ofNat (0x10000 + (n - 0xD800) * 0x400 + (m - 0xDC00)) :: v)
  | loneLow {h : Str} {n : Nat} {t v : Str} : Hex4 h n → LowHalf n → StrText t v →
      StrText ('\\' :: 'u' :: (h ++ t)) (Char.ofNat 0xFFFD :: v)
  | loneHigh {h : Str} {n : Nat} {t v : Str} : Hex4 h n → HighHalf n →
      (¬ ∃ l m t', t = '\\' :: 'u' :: (l ++ t') ∧ Hex4 l m ∧ LowHalf m) → StrText t v →
      StrText ('\\' :: 'u' :: (h ++ t)) (Char.ofNat 0xFFFD :: v)

mutual
/-- `JText j t`: the text `t`, without white space around it, is the document `j`. -/
inductive JText : Json → Str → Prop
  | null : JText .null ['n', 'u', 'l', 'l']
  | yes : JText (.bool true) ['t', 'r', 'u', 'e']
  | no : JText (.bool false) ['f', 'a', 'l', 's', 'e']
  | num {t : Str} : NumText t → JText (.num t) t
  | str {t v : Str} : StrText t v → JText (.str v) ('"' :: (t ++ ['"']))
  | emptyArr {b : Str} : Blank b → JText (.arr []) ('[' :: (b ++ [']']))
  | arr {xs : List Json} {t : Str} : JElems xs t → JText (.arr xs) ('[' :: (t ++ [']']))
  | emptyObj {b : Str} : Blank b → JText (.obj []) ('{' :: (b ++ ['}']))
  | obj {fs : List (Str × Json)} {t : Str} : JMembers fs t → JText (.obj fs) ('{' :: (t ++ ['}']))
/-- Elements between commas, at least one. -/
inductive JElems : List Json → Str → Prop
  | one {x : Json} {b t a : Str} : Blank b → JText x t → Blank a → JElems [x] (b ++ (t ++ a))
  | more {x : Json} {xs : List Json} {b t a u : Str} : Blank b → JText x t → Blank a → JElems xs u →
      JElems (x :: xs) (b ++ (t ++ (a ++ ',' :: u)))
/-- Fields between commas, at least one. -/
inductive JMembers : List (Str × Json) → Str → Prop
  | one {k : Str} {v : Json} {m : Str} : JMember k v m → JMembers [(k, v)] m
  | more {k : Str} {v : Json} {fs : List (Str × Json)} {m u : Str} : JMember k v m → JMembers fs u →
      JMembers ((k, v) :: fs) (m ++ ',' :: u)
/-- A field: its name, a colon, its value. -/
inductive JMember : Str → Json → Str → Prop
  | mk {k kt : Str} {v : Json} {b1 b2 b3 b4 t : Str} : Blank b1 → StrText kt k → Blank b2 → Blank b3 → JText v t →
      Blank b4 → JMember k v (b1 ++ '"' :: (kt ++ '"' :: (b2 ++ ':' :: (b3 ++ (t ++ b4)))))
end

/-- A text that is one document. -/
def JsonDoc (j : Json) (t : Str) : Prop := ∃ b v a, t = b ++ (v ++ a) ∧ Blank b ∧ JText j v ∧ Blank a

end LogCache.Spec
