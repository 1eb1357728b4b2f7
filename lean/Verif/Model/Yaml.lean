/-
src/extensions/metadata.c: what is made of a YAML document of libyaml, the bundles of plugins, and the chains of transforms in
`[%key:transform(options)]`.  libyaml itself is not modelled: a document is given as its table of nodes.
-/
import Verif.Model.Metadata
import Verif.Model.Man

namespace Verif.Yaml

open Metadata (Meta Item addItem)

/-- A node of a document (`yaml_node_t`).  Items, keys and values are given by their index in the table of nodes, so that one node can
be used several times, by anchors and aliases, and also inside of itself.  The index starts with 0 here. -/
inductive Node
  | scalar (v : Bytes)
  | seq (items : List Nat)
  | map (pairs : List (Nat × Nat))
  deriving DecidableEq

/-- `yaml_document_t`; the root is the first node. -/
abbrev Doc := List Node

/-- `yaml_document_get_node`. -/
def node (d : Doc) (i : Nat) : Option Node := d[i]?

/-- The bytes up to a NUL: what `strdup`, `strlen` and `%s` see. -/
def cstr (b : Bytes) : Bytes := b.takeWhile (· != 0)

/-- metadata.c:170-174 and 222-228: `char key[512]`. -/
def label (p k : Bytes) : Bytes := (if p = [] then k else p ++ c!"." :: k).take 511

/-- metadata.c:113-126: an item, if there is a key. -/
def entry (p v : Bytes) (m : Meta) : Meta := if p = [] then m else addItem m (p, v)

/-- The scalars of a sequence, if all its items are scalars, metadata.c:134-157. -/
def scalars (d : Doc) : List Nat → Option (List Bytes)
  | [] => some []
  | i :: is =>
    match node d i with
    | some (.scalar v) => (scalars d is).map (cstr v :: ·)
    | some _ => none
    | none => scalars d is

/-- metadata.c:190-204. -/
def join : List Bytes → Bytes
  | [] => []
  | [v] => v
  | v :: vs => v ++ b!", " ++ join vs

/-- metadata.c:108-248 `yaml_node_to_flat_items` for at most `n` nested calls; `none`: they do not suffice. -/
def flat (d : Doc) : Nat → Bytes → Node → Meta → Option Meta
  | 0, _, _, _ => none
  | _ + 1, p, .scalar v, m => some (entry p (cstr v) m)
  | n + 1, p, .seq is, m =>
    match scalars d is with
    | some [] => some m
    | some vs => some (entry p (join vs) m)
    | none =>
      (is.zipIdx).foldlM (fun m x =>
        match node d x.1 with
        | some ch => flat d n (label p (Man.decimal x.2)) ch m
        | none => some m) m
  | n + 1, p, .map ps, m =>
    ps.foldlM (fun m x =>
      match node d x.1, node d x.2 with
      | some (.scalar k), some v => flat d n (label p (cstr k)) v m
      | _, _ => some m) m

/-- metadata.c:288-306: the items of the front matter; a root that is no mapping gives none. -/
def items (d : Doc) (n : Nat) : Option Meta :=
  match node d 0 with
  | some (.map ps) => flat d n [] (.map ps) []
  | _ => some []

/-- metadata.c:2886-2926, one pair of a mapping in a bundle. -/
def pair (d : Doc) (m : Meta) (x : Nat × Nat) : Meta :=
  match node d x.1, node d x.2 with
  | some (.scalar k), some (.scalar v) => addItem m (cstr k, cstr v)
  | some (.scalar k), some (.map ns) =>
    ns.foldl (fun m y =>
      match node d y.1, node d y.2 with
      | some (.scalar k'), some (.scalar v) => addItem m (cstr (k ++ c!"." :: k'), cstr v)
      | _, _ => m) m
  | _, _ => m

/-- metadata.c:2868-2932 `yaml_mapping_to_metadata_items`. -/
def mapping (d : Doc) (ps : List (Nat × Nat)) : Meta := ps.foldl (pair d) []

/-- metadata.c:3017-3030: the value of the first key `bundle`. -/
def findBundle (d : Doc) : List (Nat × Nat) → Option Node
  | [] => none
  | x :: ps =>
    match node d x.1 with
    | some (.scalar k) => if cstr k = b!"bundle" then node d x.2 else findBundle d ps
    | _ => findBundle d ps

/-- metadata.c:3002-3066 `apex_extract_plugin_bundle`; NULL is `none`. -/
def bundle (d : Doc) : Option (List Meta) :=
  match node d 0 with
  | some (.map ps) =>
    match findBundle d ps with
    | some (.seq is) => some (is.filterMap fun i =>
        match node d i with
        | some (.map ns) => some (mapping d ns)
        | _ => none)
    | _ => none
  | _ => none

/-! ### Chains of transforms -/

/-- `apex_transform`. -/
structure Tr where
  name : Bytes
  options : Option Bytes
  deriving DecidableEq

/-- metadata.c:903-905. -/
def inName (c : Byte) : Bool := c != c!":" && c != c!"("

/-- metadata.c:920-943: the options behind a name; `none`: the parenthesis is not closed. -/
def options : Bytes → Option (Option Bytes × Bytes)
  | [] => some (none, [])
  | c :: r =>
    if c = c!"(" then
      match r.dropWhile (· != c!")") with
      | [] => none
      | _ :: r' => some (some (r.takeWhile (· != c!")")), r')
    else some (none, c :: r)

theorem dropWhile_length (f : Byte → Bool) (l : Bytes) : (l.dropWhile f).length ≤ l.length := by
  have h := congrArg List.length (List.takeWhile_append_dropWhile (p := f) (l := l))
  rw [List.length_append] at h
  omega

theorem options_cons (c : Byte) (r : Bytes) : options (c :: r) =
    if c = c!"(" then
      match r.dropWhile (· != c!")") with
      | [] => none
      | _ :: r' => some (some (r.takeWhile (· != c!")")), r')
    else some (none, c :: r) := rfl

theorem options_length {q : Bytes} {o : Option Bytes} {r : Bytes} (h : options q = some (o, r)) : r.length ≤ q.length := by
  match q with
  | [] => simp [options] at h; simp [h.2]
  | c :: q =>
    rw [options_cons] at h
    split at h
    · split at h
      · cases h
      · rename_i b r' e
        simp only [Option.some.injEq, Prod.mk.injEq] at h
        have h2 := dropWhile_length (· != c!")") q
        rw [e, List.length_cons] at h2
        rw [← h.2, List.length_cons]
        omega
    · simp only [Option.some.injEq, Prod.mk.injEq] at h; simp [← h.2]

/-- metadata.c:886-953: the loop of `parse_transform_chain`. -/
def chainLoop (p : Bytes) : Option (List Tr) :=
  if p = [] then some []
  else
    match _h : options (p.dropWhile inName) with
    | none => none
    | some (o, r) =>
      match _h' : r with
      | [] => some [⟨p.takeWhile inName, o⟩]
      | c :: r' => if c = c!":" then (chainLoop r').map (⟨p.takeWhile inName, o⟩ :: ·) else some [⟨p.takeWhile inName, o⟩]
  termination_by p.length
  decreasing_by
    have h1 := options_length _h
    have h2 := dropWhile_length inName p
    rw [List.length_cons] at h1
    omega

/-- metadata.c:859-956 `parse_transform_chain`: the key (NULL is `none`) and the chain (NULL is the empty one). -/
def parseChain (input : Bytes) : Option Bytes × List Tr :=
  match input.dropWhile (· != c!":") with
  | [] => (some input, [])
  | _ :: p =>
    match chainLoop p with
    | none => (none, [])
    | some l => (some (input.takeWhile (· != c!":")), l)

/-- metadata.c:2061-2083: the value of a pattern with a colon; `apply` is `apply_transform_chain`, which never gives NULL. -/
def chain (apply : List Tr → Bytes → Bytes) (md : Meta) (pattern : Bytes) : Option Bytes :=
  match parseChain pattern with
  | (some key, []) => Metadata.get md key
  | (some key, ts) => (Metadata.get md key).map (apply ts)
  | (none, _) => Metadata.get md pattern

end Verif.Yaml
