/-
What is expected of plugin lists, text phases, regex plugins and plugin requests.
-/
import Verif.Model.Plugins
import Verif.Spec.Json

namespace Verif.Plugins.Spec

/-- `p` may stand before `q`: smaller priority, or the same and an id that is not greater in the order of
byte strings (core's lexicographic `≤` on lists). -/
def Before (p q : Plugin) : Prop := p.priority < q.priority ∨ p.priority = q.priority ∧ p.id ≤ q.id

/-- `p` is the first plugin of the sequence with its id in this phase. -/
def First (ph : Phase) (ps : List Plugin) (p : Plugin) : Prop :=
  ∃ pre post, ps = pre ++ p :: post ∧ p.phase = ph ∧ ∀ q ∈ pre, q.phase = ph → q.id ≠ p.id

/-! ### Regular expressions -/

/-- Offsets of the match and of every group lie inside the text, and there is a match offset (group 0). -/
def Valid (rx : Rx) : Prop :=
  ∀ s g, rx s = some g → (∃ a e, g 0 = some (a, e)) ∧ ∀ i a e, g i = some (a, e) → a ≤ e ∧ e ≤ s.length

/-- The text of a group; empty when it did not take part in the match. -/
def group (g : Nat → Option (Nat × Nat)) (s : Bytes) (i : Nat) : Bytes :=
  match g i with
  | some (a, e) => (s.drop a).take (e - a)
  | none => []

/-- `Expand grp rep out`: `out` is `rep` with every `$d` turned into `grp d`. -/
inductive Expand (grp : Nat → Bytes) : Bytes → Bytes → Prop
  | nil : Expand grp [] []
  | ref {d t o} : isDigit d → Expand grp t o → Expand grp (c!"$" :: d :: t) (grp (d.toNat - 48) ++ o)
  | chr {c t o} : (c = c!"$" → ∀ d t', t = d :: t' → ¬ isDigit d) → Expand grp t o →
      Expand grp (c :: t) (c :: o)

/-- `Replaced rx rep s out`: matches are searched from the left, each search starting behind the previous
match (one byte further after an empty match at the start), and each is replaced by the expanded
template. -/
inductive Replaced (rx : Rx) (rep : Bytes) : Bytes → Bytes → Prop
  | done {s} : rx s = none → Replaced rx rep s s
  | zeroEnd {g e} : rx [] = some g → Expand (group g []) rep e → Replaced rx rep [] e
  | zero {c t g e o} : rx (c :: t) = some g → g 0 = some (0, 0) → Expand (group g (c :: t)) rep e →
      Replaced rx rep t o → Replaced rx rep (c :: t) (e ++ c :: o)
  | step {pre m post g e o} : rx (pre ++ m ++ post) = some g →
      g 0 = some (pre.length, pre.length + m.length) → pre ++ m ≠ [] →
      Expand (group g (pre ++ m ++ post)) rep e → Replaced rx rep post o →
      Replaced rx rep (pre ++ m ++ post) (pre ++ e ++ o)

/-! ### Running a phase -/

/-- The environment a command is to see: the plugin's directory, its support directory and the file
being processed, everything else as outside. -/
def seen (env : Env) (p : Plugin) (file : Bytes) : Env := fun k =>
  if k = b!"APEX_FILE_PATH" then some file
  else if k = b!"APEX_PLUGIN_DIR" then some p.dir
  else if k = b!"APEX_SUPPORT_DIR" ∧ p.support.isSome then p.support
  else env k

/-- The bytes of a string before the first NUL. -/
def UpToNul (s t : Bytes) : Prop := (0 : Byte) ∉ t ∧ (s = t ∨ ∃ r, s = t ++ 0 :: r)

/-- What one plugin makes of the text. -/
inductive Step (proc : Proc) (file : Bytes) (env : Env) (p : Plugin) (text : Bytes) : Bytes → Prop
  | ran {cmd e code out t} : p.command = some cmd → cmd ≠ [] → Json.value e = some text →
      proc (seen env p file) cmd (request p.id (phaseName p.phase) e) = some (code, out) →
      UpToNul out t → Step proc file env p text t
  | noStart {cmd e} : p.command = some cmd → cmd ≠ [] → Json.value e = some text →
      proc (seen env p file) cmd (request p.id (phaseName p.phase) e) = none →
      Step proc file env p text text
  | noCommand : p.command = some [] → Step proc file env p text text
  | regex {rx rep t} : p.command = none → p.regex = some (rx, rep) → Replaced rx rep text t →
      Step proc file env p text t
  | nothing : p.command = none → p.regex = none → Step proc file env p text text

/-- The plugins one after the other, each on the result of the previous one. -/
inductive Steps (proc : Proc) (file : Bytes) (env : Env) : List Plugin → Bytes → Bytes → Prop
  | nil {t} : Steps proc file env [] t t
  | cons {p ps a b c} : Step proc file env p a b → Steps proc file env ps b c →
      Steps proc file env (p :: ps) a c

/-! ### Requests -/

inductive Val
  | str (s : Bytes)
  | num (ds : Bytes)
  deriving DecidableEq

/-- A JSON string literal with this value. -/
def IsStr (raw v : Bytes) : Prop := ∃ e, raw = b!"\"" ++ e ++ b!"\"" ∧ Json.value e = some v

def IsVal (raw : Bytes) : Val → Prop
  | .str s => IsStr raw s
  | .num ds => raw = ds ∧ ds ≠ [] ∧ ∀ d ∈ ds, isDigit d

/-- Members separated by commas, with blanks between tokens. -/
inductive Members : Bytes → List (Bytes × Val) → Prop
  | one {k v key val} : IsStr k key → IsVal v val → Members (k ++ b!": " ++ v) [(key, val)]
  | cons {k v key val r ms} : IsStr k key → IsVal v val → Members r ms →
      Members (k ++ b!": " ++ v ++ b!", " ++ r) ((key, val) :: ms)

/-- A JSON object followed by a line break. -/
def IsObject (raw : Bytes) (ms : List (Bytes × Val)) : Prop :=
  ∃ r, raw = b!"{ " ++ r ++ b!" }\n" ∧ Members r ms

end Verif.Plugins.Spec
