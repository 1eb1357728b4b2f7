import Verif.Model.Yaml

namespace Verif.Yaml.Spec

/-- A number in decimal notation. -/
def number (n : Nat) : Bytes := (Nat.toDigits 10 n).map fun c => c.toUInt8

/-- A node below a node: an item of a sequence, or the value of a key that is a scalar. -/
inductive Below (d : Doc) : Node → Node → Prop
  | item {is : List Nat} {i : Nat} {v : Node} : i ∈ is → node d i = some v → Below d (.seq is) v
  | value {ps : List (Nat × Nat)} {k j : Nat} {key : Bytes} {v : Node} : (k, j) ∈ ps → node d k = some (.scalar key) → node d j = some v →
      Below d (.map ps) v

/-- There is no end to the nodes below a node. -/
def Endless (d : Doc) (v : Node) : Prop := ∃ f : Nat → Node, f 0 = v ∧ ∀ k, Below d (f k) (f (k + 1))

/-- All items are scalars, with these texts. -/
def Texts (d : Doc) (is : List Nat) (ts : List Bytes) : Prop := is.map (node d) = ts.map fun t => some (.scalar t)

/-- `Leaf d v path t`: below `v`, at the end of `path`, is the text `t`.  A sequence of texts counts as one text, with commas; other
sequences are numbered. -/
inductive Leaf (d : Doc) : Node → List Bytes → Bytes → Prop
  | scalar (t : Bytes) : Leaf d (.scalar t) [] t
  | texts {is : List Nat} {ts : List Bytes} : ts ≠ [] → Texts d is ts → Leaf d (.seq is) [] (List.intercalate b!", " ts)
  | item {is : List Nat} {i n : Nat} {v : Node} {path : List Bytes} {t : Bytes} : (¬ ∃ ts, Texts d is ts) → is[n]? = some i →
      node d i = some v → Leaf d v path t → Leaf d (.seq is) (number n :: path) t
  | value {ps : List (Nat × Nat)} {k j : Nat} {key : Bytes} {v : Node} {path : List Bytes} {t : Bytes} : (k, j) ∈ ps →
      node d k = some (.scalar key) → node d j = some v → Leaf d v path t → Leaf d (.map ps) (key :: path) t

/-- The name of a path: its parts with dots in between. -/
def dotted (path : List Bytes) : Bytes := List.intercalate b!"." path

/-- Every index is one of the table, and there are no NUL and no empty keys. -/
def Proper (d : Doc) : Prop :=
  ∀ v ∈ d, match v with
    | .scalar t => 0 ∉ t
    | .seq is => ∀ i ∈ is, i < d.length
    | .map ps => ∀ x ∈ ps, x.1 < d.length ∧ x.2 < d.length ∧ node d x.1 ≠ some (.scalar [])

/-- The pairs of a node that is a mapping. -/
def pairs : Node → Option (List (Nat × Nat))
  | .map ps => some ps
  | _ => none

/-- The entries of a plugin in a bundle: its texts, and those of the mappings in it. -/
inductive Entry (d : Doc) (ps : List (Nat × Nat)) : Bytes → Bytes → Prop
  | text {i j : Nat} {k t : Bytes} : (i, j) ∈ ps → node d i = some (.scalar k) → node d j = some (.scalar t) → Entry d ps k t
  | nested {i j i' j' : Nat} {ns : List (Nat × Nat)} {k k' t : Bytes} : (i, j) ∈ ps → node d i = some (.scalar k) →
      node d j = some (.map ns) → (i', j') ∈ ns → node d i' = some (.scalar k') → node d j' = some (.scalar t) →
      Entry d ps (k ++ b!"." ++ k') t

/-- A transform as it is written. -/
def written (t : Tr) : Bytes :=
  match t.options with
  | none => t.name
  | some o => t.name ++ b!"(" ++ o ++ b!")"

/-- A key and its transforms as they are written. -/
def pattern (key : Bytes) (ts : List Tr) : Bytes := key ++ b!":" ++ List.intercalate b!":" (ts.map written)

/-- A transform that can be written. -/
def Good (t : Tr) : Prop := t.name ≠ [] ∧ c!":" ∉ t.name ∧ c!"(" ∉ t.name ∧ ∀ o, t.options = some o → c!")" ∉ o

end Verif.Yaml.Spec
