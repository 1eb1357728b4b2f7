import Verif.Model.TableHtml
import Verif.Spec.TableHtml
import Verif.Proof.Images
import Verif.Proof.IalTree
import Verif.Proof.TableSpans
import Verif.Proof.Aria

namespace Verif.TableHtml
open Embed (find)
open ElemAttrs (has)
open Spec (differs quiet Unmarked)

/-! ### Turns -/

section
variable (D : Doc) (al : Bool) (pos : Int)

inductive Steps : St → Bytes → St → Bytes → Prop
  | refl (st s) : Steps st s st s
  | step {st s st1 s1 st2 s2} : turn D al pos st s = .val (st1, s1) → s1.length < s.length → Steps st1 s1 st2 s2 → Steps st s st2 s2

variable {D al pos}

theorem Steps.trans {a s b t c u} (h : Steps D al pos a s b t) (h' : Steps D al pos b t c u) : Steps D al pos a s c u := by
  induction h with
  | refl => exact h'
  | step h1 h2 _ ih => exact .step h1 h2 (ih h')

theorem Steps.one {st s st1 s1} (h : turn D al pos st s = .val (st1, s1)) (h2 : s1.length < s.length) : Steps D al pos st s st1 s1 :=
  .step h h2 (.refl _ _)

theorem loop_steps {st s st' s'} (h : Steps D al pos st s st' s') : ∀ {n}, s.length ≤ n → ∃ m, s'.length ≤ m ∧ loop D al pos n st s = loop D al pos m st' s' := by
  induction h with
  | refl => intro n hn; exact ⟨n, hn, rfl⟩
  | @step st s st1 s1 st2 s2 h1 h2 _ ih =>
    intro n hn
    obtain ⟨n, rfl⟩ : ∃ k, n = k + 1 := ⟨n - 1, by omega⟩
    obtain ⟨m, hm, e⟩ := ih (n := n) (by omega)
    refine ⟨m, hm, ?_⟩
    rw [← e]
    cases s with
    | nil => simp at h2
    | cons c s => simp only [loop, h1, C.val_bind]

theorem loop_end {st s st'} (h : Steps D al pos st s st' []) : loop D al pos s.length st s = finish st'.cap st'.out := by
  obtain ⟨m, _, e⟩ := loop_steps h (Nat.le_refl _)
  rw [e]
  cases m <;> rfl

/-! ### Room -/

theorem grow_eq {st : St} (h : st.written = st.out.length) : ∃ k, st.cap ≤ k ∧ st.grow = { st with cap := k } := by
  unfold St.grow
  split
  · refine ⟨st.cap * 2, by omega, ?_⟩
    rw [h, List.take_length]
  · exact ⟨st.cap, Nat.le_refl _, rfl⟩

theorem le_doubled (need : Nat) : ∀ k cap, cap ≤ doubled need k cap
  | 0, _ => Nat.le_refl _
  | k + 1, cap => by
    rw [doubled]
    split
    · exact Nat.le_trans (by omega) (le_doubled need k _)
    · exact Nat.le_refl _

theorem room_eq {st : St} (h : st.written = st.out.length) (n : Nat) : ∃ k, st.cap ≤ k ∧ st.room n = { st with cap := k } := by
  unfold St.room
  split
  · refine ⟨_, le_doubled (st.written + n) (st.written + n) st.cap, ?_⟩
    rw [h, List.take_length]
  · exact ⟨st.cap, Nat.le_refl _, rfl⟩

theorem write_eq {st : St} {s : Bytes} (h : st.out.length + s.length ≤ st.cap) :
    st.write s = .val { st with out := st.out ++ s, written := st.written + s.length } := by
  unfold St.write
  rw [if_pos h]

/-! ### Triples -/

variable (D al pos)

/-- From the states `P`, the text `s` is read up to `t`, and `w` is written; then the state is in `Q`.  There are `K` bytes. -/
def Tr (K : Nat) (P : St → Prop) (s w t : Bytes) (Q : St → Prop) : Prop :=
  ∀ st, P st → st.written = st.out.length → K ≤ st.cap → st.out.length + w.length ≤ K →
    ∃ st', Steps D al pos st s st' t ∧ st'.out = st.out ++ w ∧ st'.written = st'.out.length ∧ K ≤ st'.cap ∧ Q st'

/-- It does not depend on the output. -/
def Free (P : St → Prop) : Prop := ∀ st o w c, P st → P { st with out := o, written := w, cap := c }

variable {D al pos} {K : Nat} {P Q R : St → Prop}

theorem Tr.seq {s w t v u} (h : Tr D al pos K P s w t Q) (h' : Tr D al pos K Q t v u R) : Tr D al pos K P s (w ++ v) u R := by
  intro st hP hw hK hl
  rw [List.length_append] at hl
  obtain ⟨st1, a1, a2, a3, a4, a5⟩ := h st hP hw hK (by omega)
  obtain ⟨st2, b1, b2, b3, b4, b5⟩ := h' st1 a5 a3 a4 (by rw [a2, List.length_append]; omega)
  exact ⟨st2, a1.trans b1, by rw [b2, a2, List.append_assoc], b3, b4, b5⟩

theorem Tr.imp {s w t} (h : Tr D al pos K P s w t Q) {P' Q' : St → Prop} (hP : ∀ st, P' st → P st) (hQ : ∀ st, Q st → Q' st) : Tr D al pos K P' s w t Q' := by
  intro st h1 h2 h3 h4
  obtain ⟨st', a, b, c, d, e⟩ := h st (hP _ h1) h2 h3 h4
  exact ⟨st', a, b, c, d, hQ _ e⟩

theorem Tr.nil {s} : Tr D al pos K P s [] s P := fun st h h1 h2 _ => ⟨st, .refl _ _, by simp, h1, h2, h⟩

theorem Tr.go {c u v c' u'} (hP : Free P) (hQ : Free Q) (hl : u'.length ≤ u.length)
    (h : ∀ st, P st → st.written = st.out.length → K ≤ st.cap → st.out.length + v.length + 1 ≤ K →
      ∃ st1, tagTurn D pos st (c :: u) = .val (.go st1 (c' :: u')) ∧ opensCell st1 (c' :: u') = false ∧ st1.out = st.out ++ v ∧ st1.written = st1.out.length ∧
        K ≤ st1.cap ∧ Q st1) : Tr D al pos K P (c :: u) (v ++ [c']) u' Q := by
  intro st h1 h2 h3 h4
  obtain ⟨k, hk, eg⟩ := grow_eq h2
  simp only [List.length_append, List.length_cons, List.length_nil] at h4
  obtain ⟨st1, a1, a2, a3, a4, a5, a6⟩ := h { st with cap := k } (hP st st.out st.written k h1) h2 (Nat.le_trans h3 hk) (by simp only; omega)
  have hw : st1.out.length + [c'].length ≤ st1.cap := by
    rw [a3]; simp only [List.length_append, List.length_cons, List.length_nil]; omega
  refine ⟨{ st1 with out := st1.out ++ [c'], written := st1.written + 1 }, .one ?_ (by simp only [List.length_cons]; omega), ?_, ?_, a5, hQ st1 _ _ _ a6⟩
  · rw [turn, eg, a1]
    simp only [C.val_bind, a2, Bool.false_eq_true, if_false, write_eq hw, List.length_cons, List.length_nil, Nat.zero_add]
  · simp only [a3, List.append_assoc]
  · simp only [a4, List.length_append, List.length_cons, List.length_nil]

theorem Tr.done {s v t} (hP : Free P) (hl : t.length < s.length)
    (h : ∀ st, P st → st.written = st.out.length → K ≤ st.cap → st.out.length + v.length ≤ K →
      ∃ st1, tagTurn D pos st s = .val (.done st1 t) ∧ st1.out = st.out ++ v ∧ st1.written = st1.out.length ∧ K ≤ st1.cap ∧ Q st1) : Tr D al pos K P s v t Q := by
  intro st h1 h2 h3 h4
  obtain ⟨k, hk, eg⟩ := grow_eq h2
  obtain ⟨st1, a1, a3, a4, a5, a6⟩ := h { st with cap := k } (hP st st.out st.written k h1) h2 (Nat.le_trans h3 hk) h4
  refine ⟨st1, .one ?_ hl, a3, a4, a5, a6⟩
  rw [turn, eg, a1]
  rfl

theorem Tr.cell {s v t} (hP : Free P) (hl : t.length < s.length)
    (h : ∀ st, P st → st.written = st.out.length → K ≤ st.cap → st.out.length + v.length ≤ K →
      ∃ st1, tagTurn D pos st s = .val (.go st s) ∧ opensCell st s = true ∧ cellTurn D al st s = .val (.done st1 t) ∧ st1.out = st.out ++ v ∧
        st1.written = st1.out.length ∧ K ≤ st1.cap ∧ Q st1) : Tr D al pos K P s v t Q := by
  intro st h1 h2 h3 h4
  obtain ⟨k, hk, eg⟩ := grow_eq h2
  obtain ⟨st1, a1, a0, a2, a3, a4, a5, a6⟩ := h { st with cap := k } (hP st st.out st.written k h1) h2 (Nat.le_trans h3 hk) h4
  refine ⟨st1, .one ?_ hl, a3, a4, a5, a6⟩
  rw [turn, eg, a1]
  simp only [C.val_bind, a0, if_true, a2]

/-! ### Places -/

/-- The place in the page. -/
def At (i : Int) (tab row bod hd : Bool) (H : List Int → Prop) (R : Int → Prop) (J : Nat → Prop) (st : St) : Prop :=
  st.table = i ∧ st.inTable = tab ∧ st.inRow = row ∧ st.inBody = bod ∧ st.inFoot = false ∧ st.inHead = hd ∧ H st.heads ∧ st.prev = none ∧ R st.row ∧ J st.col

theorem At.free {i tab row bod hd H R J} : Free (At i tab row bod hd H R J) := fun _ _ _ _ h => h

theorem not_begins {c : Byte} {w u : Bytes} (h : c ≠ c!"<") : begins (c!"<" :: w) (c :: u) = false := by
  have : (c!"<" == c) = false := by simpa using fun e => h e.symm
  simp [begins, List.isPrefixOf, this]

theorem tag_plain {c : Byte} {u : Bytes} (h : c ≠ c!"<") (st : St) : tagTurn D pos st (c :: u) = .val (.go st (c :: u)) := by
  simp only [tagTurn, opensTable, not_begins h, Bool.false_and, Bool.and_false, Bool.false_eq_true, if_false]

theorem cell_plain {c : Byte} {u : Bytes} (h : c ≠ c!"<") (st : St) : opensCell st (c :: u) = false := by
  simp only [opensCell, not_begins h, Bool.or_false, Bool.and_false, Bool.false_and]

theorem Tr.plain {t u : Bytes} (h : c!"<" ∉ t) (hP : Free P) : Tr D al pos K P (t ++ u) t u P := by
  induction t with
  | nil => exact Tr.nil
  | cons c t ih =>
    simp only [List.mem_cons, not_or] at h
    have hc : c ≠ c!"<" := fun e => h.1 e.symm
    refine Tr.seq (w := [c]) (Tr.go (v := []) hP hP (Nat.le_refl _) ?_) (ih h.2)
    intro st h1 h2 h3 _
    exact ⟨st, tag_plain hc st, cell_plain hc st, by simp, h2, h3, h1⟩

/-- A tag: it is looked at, then copied. -/
theorem Tr.tag {w u : Bytes} (hP : Free P) (hQ : Free Q) (hw : c!"<" ∉ w)
    (h : ∀ st, P st → ∃ st1, tagTurn D pos st (c!"<" :: (w ++ u)) = .val (.go st1 (c!"<" :: (w ++ u))) ∧ opensCell st1 (c!"<" :: (w ++ u)) = false ∧
      st1.out = st.out ∧ st1.written = st.written ∧ st1.cap = st.cap ∧ Q st1) : Tr D al pos K P (c!"<" :: (w ++ u)) (c!"<" :: w) u Q := by
  refine Tr.seq (w := [c!"<"]) (Tr.go (v := []) hP hQ (Nat.le_refl _) ?_) (Tr.plain hw hQ)
  intro st h1 h2 h3 _
  obtain ⟨st1, a, b, c, d, e, f⟩ := h st h1
  exact ⟨st1, a, b, by simp [c], by rw [d, c, h2], by rw [e]; exact h3, f⟩

/-! ### Tags of tables -/

variable {i : Int} {bod hd : Bool} {H : List Int → Prop} {R : Int → Prop} {J : Nat → Prop}

theorem Tr.thead {u : Bytes} : Tr D al pos K (At i true false false false H R J) (b!"<thead>\n" ++ u) b!"<thead>\n" u (At i true false false true H R J) := by
  refine Tr.tag (w := b!"thead>\n") At.free At.free (by decide) ?_
  intro st h
  refine ⟨{ st with inHead := true }, ?_, ?_, rfl, rfl, rfl, ?_⟩
  · have e1 : opensTable (c!"<" :: (b!"thead>\n" ++ u)) = false := rfl
    have e2 : begins b!"</table>" (c!"<" :: (b!"thead>\n" ++ u)) = false := rfl
    have e3 : begins b!"<thead>" (c!"<" :: (b!"thead>\n" ++ u)) = true := rfl
    simp only [tagTurn, e1, e2, e3, h.2.1, Bool.false_eq_true, if_false, Bool.and_self, if_true]
  · have e1 : begins b!"<thead>" (c!"<" :: (b!"thead>\n" ++ u)) = true := rfl
    simp only [opensCell, e1, Bool.not_true, Bool.and_false, Bool.false_and]
  · obtain ⟨h1, h2, h3, h4, h5, h6, h7⟩ := h
    exact ⟨h1, h2, h3, h4, h5, rfl, h7⟩

theorem Tr.thead_end {u : Bytes} : Tr D al pos K (At i true false false true H R J) (b!"</thead>\n" ++ u) b!"</thead>\n" u (At i true false false false H R J) := by
  refine Tr.tag (w := b!"/thead>\n") At.free At.free (by decide) ?_
  intro st h
  refine ⟨{ st with inHead := false }, ?_, ?_, rfl, rfl, rfl, ?_⟩
  · have e1 : opensTable (c!"<" :: (b!"/thead>\n" ++ u)) = false := rfl
    have e2 : begins b!"</table>" (c!"<" :: (b!"/thead>\n" ++ u)) = false := rfl
    have e3 : begins b!"<thead>" (c!"<" :: (b!"/thead>\n" ++ u)) = false := rfl
    have e4 : begins b!"</thead>" (c!"<" :: (b!"/thead>\n" ++ u)) = true := rfl
    simp only [tagTurn, e1, e2, e3, e4, h.2.1, Bool.false_eq_true, if_false, Bool.and_self, Bool.and_false, if_true]
  · have e1 : begins b!"<th" (c!"<" :: (b!"/thead>\n" ++ u)) = false := rfl
    have e2 : begins b!"<td" (c!"<" :: (b!"/thead>\n" ++ u)) = false := rfl
    simp only [opensCell, e1, e2, Bool.or_false, Bool.and_false, Bool.false_and]
  · obtain ⟨h1, h2, h3, h4, h5, h6, h7⟩ := h
    exact ⟨h1, h2, h3, h4, h5, rfl, h7⟩

theorem Tr.tbody {u : Bytes} : Tr D al pos K (At i true false false false H R J) (b!"<tbody>\n" ++ u) b!"<tbody>\n" u (At i true false true false H R J) := by
  refine Tr.tag (w := b!"tbody>\n") At.free At.free (by decide) ?_
  intro st h
  refine ⟨{ st with inBody := true, inFoot := false }, ?_, ?_, rfl, rfl, rfl, ?_⟩
  · have e1 : opensTable (c!"<" :: (b!"tbody>\n" ++ u)) = false := rfl
    have e2 : begins b!"</table>" (c!"<" :: (b!"tbody>\n" ++ u)) = false := rfl
    have e3 : begins b!"<thead>" (c!"<" :: (b!"tbody>\n" ++ u)) = false := rfl
    have e4 : begins b!"</thead>" (c!"<" :: (b!"tbody>\n" ++ u)) = false := rfl
    have e5 : begins b!"<tbody>" (c!"<" :: (b!"tbody>\n" ++ u)) = true := rfl
    simp only [tagTurn, e1, e2, e3, e4, e5, h.2.1, Bool.false_eq_true, if_false, Bool.and_self, Bool.and_false, if_true]
  · have e1 : begins b!"<tbody>" (c!"<" :: (b!"tbody>\n" ++ u)) = true := rfl
    simp only [opensCell, e1, Bool.not_true, Bool.and_false, Bool.false_and]
  · obtain ⟨h1, h2, h3, h4, h5, h6, h7⟩ := h
    exact ⟨h1, h2, h3, rfl, rfl, h6, h7⟩

theorem Tr.tbody_end {u : Bytes} : Tr D al pos K (At i true false true false H R J) (b!"</tbody>\n" ++ u) b!"</tbody>\n" u (At i true false false false H R J) := by
  refine Tr.tag (w := b!"/tbody>\n") At.free At.free (by decide) ?_
  intro st h
  refine ⟨{ st with inBody := false }, ?_, ?_, rfl, rfl, rfl, ?_⟩
  · have e1 : opensTable (c!"<" :: (b!"/tbody>\n" ++ u)) = false := rfl
    have e2 : begins b!"</table>" (c!"<" :: (b!"/tbody>\n" ++ u)) = false := rfl
    have e3 : begins b!"<thead>" (c!"<" :: (b!"/tbody>\n" ++ u)) = false := rfl
    have e4 : begins b!"</thead>" (c!"<" :: (b!"/tbody>\n" ++ u)) = false := rfl
    have e5 : begins b!"<tbody>" (c!"<" :: (b!"/tbody>\n" ++ u)) = false := rfl
    have e6 : begins b!"</tbody>" (c!"<" :: (b!"/tbody>\n" ++ u)) = true := rfl
    simp only [tagTurn, e1, e2, e3, e4, e5, e6, h.2.1, h.2.2.2.2.1, Bool.false_eq_true, if_false, Bool.and_self, Bool.and_false, if_true]
  · have e1 : begins b!"<th" (c!"<" :: (b!"/tbody>\n" ++ u)) = false := rfl
    have e2 : begins b!"<td" (c!"<" :: (b!"/tbody>\n" ++ u)) = false := rfl
    simp only [opensCell, e1, e2, Bool.or_false, Bool.and_false, Bool.false_and]
  · obtain ⟨h1, h2, h3, h4, h5, h6, h7⟩ := h
    exact ⟨h1, h2, h3, rfl, h5, h6, h7⟩

theorem Tr.tr_end {u : Bytes} : Tr D al pos K (At i true true bod hd H R J) (b!"</tr>\n" ++ u) b!"</tr>\n" u (At i true false bod hd H R J) := by
  refine Tr.tag (w := b!"/tr>\n") At.free At.free (by decide) ?_
  intro st h
  refine ⟨{ st with inRow := false }, ?_, ?_, rfl, rfl, rfl, ?_⟩
  · have e1 : opensTable (c!"<" :: (b!"/tr>\n" ++ u)) = false := rfl
    have e2 : begins b!"</table>" (c!"<" :: (b!"/tr>\n" ++ u)) = false := rfl
    have e3 : begins b!"<thead>" (c!"<" :: (b!"/tr>\n" ++ u)) = false := rfl
    have e4 : begins b!"</thead>" (c!"<" :: (b!"/tr>\n" ++ u)) = false := rfl
    have e5 : begins b!"<tbody>" (c!"<" :: (b!"/tr>\n" ++ u)) = false := rfl
    have e6 : begins b!"</tbody>" (c!"<" :: (b!"/tr>\n" ++ u)) = false := rfl
    have e7 : begins b!"<tr>" (c!"<" :: (b!"/tr>\n" ++ u)) = false := rfl
    have e8 : begins b!"</tr>" (c!"<" :: (b!"/tr>\n" ++ u)) = true := rfl
    simp only [tagTurn, e1, e2, e3, e4, e5, e6, e7, e8, h.2.2.1, Bool.false_eq_true, if_false, Bool.and_self, Bool.and_false, if_true]
  · have e1 : begins b!"<th" (c!"<" :: (b!"/tr>\n" ++ u)) = false := rfl
    have e2 : begins b!"<td" (c!"<" :: (b!"/tr>\n" ++ u)) = false := rfl
    simp only [opensCell, e1, e2, Bool.or_false, Bool.and_false, Bool.false_and]
  · obtain ⟨h1, h2, h3, h4⟩ := h
    exact ⟨h1, h2, rfl, h4⟩

theorem foot_nil (hD : D.feet = []) (t r a : Int) : rowOfFoot D t r a = false := by
  unfold rowOfFoot
  simp only [hD, List.any_nil, Bool.false_and]
  split <;> rfl

theorem skipped_nil (hD : D.feet = []) (t r a : Int) : skipped D t r a = false := by
  unfold skipped
  simp only [foot_nil hD, Bool.and_false, Bool.false_and]

theorem Tr.tr {R' : Int → Prop} {u : Bytes} (hD : D.feet = []) (hR : ∀ r, R r → R' (r + 1)) :
    Tr D al pos K (At i true false bod hd H R J) (b!"<tr>\n" ++ u) b!"<tr>\n" u (At i true true bod hd H R' (· = 0)) := by
  refine Tr.go (c := c!"<") (u := b!"tr>\n" ++ u) (v := b!"<tr>") (c' := c!"\n") At.free At.free (by simp only [List.length_append]; omega) ?_
  intro st h h2 h3 h4
  obtain ⟨a1, a2, a3, a4, a5, a6, a7, a8, a9, a10⟩ := h
  have e1 : opensTable (c!"<" :: (b!"tr>\n" ++ u)) = false := rfl
  have e2 : begins b!"</table>" (c!"<" :: (b!"tr>\n" ++ u)) = false := rfl
  have e3 : begins b!"<thead>" (c!"<" :: (b!"tr>\n" ++ u)) = false := rfl
  have e4 : begins b!"</thead>" (c!"<" :: (b!"tr>\n" ++ u)) = false := rfl
  have e5 : begins b!"<tbody>" (c!"<" :: (b!"tr>\n" ++ u)) = false := rfl
  have e6 : begins b!"</tbody>" (c!"<" :: (b!"tr>\n" ++ u)) = false := rfl
  have e7 : begins b!"<tr>" (c!"<" :: (b!"tr>\n" ++ u)) = true := rfl
  have hd4 : (c!"<" :: (b!"tr>\n" ++ u)).drop 4 = c!"\n" :: u := rfl
  have hb : (b!"<tr>").length = 4 := rfl
  refine ⟨{ st with row := st.row + 1, col := 0, prev := none, ast := if D.slots = [] then st.row + 1 else astRow D st.table (st.row + 1), inRow := true,
                    cols := mapping D st.table (st.row + 1) (if D.slots = [] then st.row + 1 else astRow D st.table (st.row + 1)),
                    out := st.out ++ b!"<tr>", written := st.written + 4 }, ?_, ?_⟩
  · simp only [tagTurn, e1, e2, e3, e4, e5, e6, e7, a2, Bool.false_eq_true, if_false, Bool.and_self, Bool.and_false, if_true, rowTurn, foot_nil hD, skipped_nil hD,
      Bool.false_and, C.val_bind, hd4]
    rw [write_eq (by simp only; omega)]
    rfl
  · refine ⟨cell_plain (by decide) _, rfl, ?_, h3, a1, a2, rfl, a4, a5, a6, a7, rfl, hR _ a9, rfl⟩
    simp only [h2, List.length_append]
    rfl

/-! ### Cells -/

/-- A cell without the line break behind it. -/
def cellOf (x : Byte) (c : Spec.Cell) (u : Bytes) : Bytes := c!"<" :: c!"t" :: x :: (c.attrs ++ c!">" :: (c.text ++ [c!"<", c!"/", c!"t", x, c!">"] ++ u))

theorem pre_of {d : Byte} {t : Bytes} : ∀ {w a : Bytes}, d ∉ w → w <+: a ++ d :: t → w <+: a
  | [], a, _, _ => List.nil_prefix
  | x :: w, [], h, hp => by
    rw [List.nil_append, List.cons_prefix_cons] at hp
    exact absurd hp.1 (fun e => h (by simp [e]))
  | x :: w, y :: a, h, hp => by
    rw [List.cons_append, List.cons_prefix_cons] at hp
    rw [List.cons_prefix_cons]
    exact ⟨hp.1, pre_of (fun e => h (List.mem_cons_of_mem _ e)) hp.2⟩

theorem find_behind {d : Byte} {w t : Bytes} (hd : d ∉ w) (hn : ¬ d :: w <+: d :: t) : ∀ {a : Bytes}, ¬ d :: w <:+: a → ∀ {y}, find (d :: w) (a ++ d :: t) = some y →
    a.length < y.1.length
  | [], _, y, h => by
    rw [List.nil_append, find, if_neg hn] at h
    cases e : find (d :: w) t with
    | none => rw [e] at h; cases h
    | some z =>
      rw [e] at h
      simp only [Option.map_some, Option.some.injEq] at h
      subst h
      simp
  | c :: a, hi, y, h => by
    rw [List.cons_append, find, if_neg ?_] at h
    · cases e : find (d :: w) (a ++ d :: t) with
      | none => rw [e] at h; cases h
      | some z =>
        rw [e] at h
        simp only [Option.map_some, Option.some.injEq] at h
        subst h
        have := find_behind hd hn (fun hh => hi (hh.trans (List.suffix_cons c a).isInfix)) e
        simp only [List.length_cons]
        omega
    · intro hp
      rw [List.cons_prefix_cons] at hp
      refine hi (List.IsPrefix.isInfix ?_)
      rw [List.cons_prefix_cons]
      exact ⟨hp.1, pre_of hd hp.2⟩

section
variable {x : Byte} {c : Spec.Cell} {u : Bytes}

theorem tags_of (hx : x ≠ c!">") (hc : c.Plain) : tag (cellOf x c u) = c!"<" :: c!"t" :: x :: c.attrs ∧
    tagEnd (cellOf x c u) = c!">" :: (c.text ++ [c!"<", c!"/", c!"t", x, c!">"] ++ u) := by
  have := Images.span_at (p := fun b => b ≠ c!">") (s := c!"<" :: c!"t" :: x :: c.attrs) (c := c!">") (t := c.text ++ [c!"<", c!"/", c!"t", x, c!">"] ++ u) (by
    intro b hb
    simp only [List.mem_cons] at hb
    rcases hb with rfl | rfl | rfl | hb
    · decide
    · decide
    · simpa using hx
    · simpa using fun e : b = c!">" => hc.2.1 (e ▸ hb)) (by decide)
  exact this

theorem closing_of (hx : x = c!"d" ∨ x = c!"h") : closing (cellOf x c u) = [c!"<", c!"/", c!"t", x, c!">"] := by
  rcases hx with rfl | rfl <;> rfl

theorem find_of (hx : x = c!"d" ∨ x = c!"h") (hc : c.Plain) :
    find [c!"<", c!"/", c!"t", x, c!">"] (c.text ++ [c!"<", c!"/", c!"t", x, c!">"] ++ u) = some (c.text, u) := by
  refine (Embed.find_eq (d := c!"<") (w := [c!"/", c!"t", x, c!">"]) (by rcases hx with rfl | rfl <;> decide) c.text u).2 ?_
  rcases hx with rfl | rfl
  · exact hc.2.2.1
  · exact hc.2.2.2.1

theorem tagEnd_infix (s : Bytes) : tagEnd s <:+: s := (List.dropWhile_suffix _).isInfix

theorem find_infix {w s a b : Bytes} (h : find w s = some (a, b)) : a <:+: s := by
  rw [Embed.find_some h]
  exact ⟨[], w ++ b, by simp⟩

theorem preview_infix (s : Bytes) : preview s <:+: s := by
  unfold preview
  split
  · rename_i e u he
    split
    · rename_i x y hf
      split
      · have h1 : (List.dropWhile isSpace x.reverse).reverse <:+: x := by
          have := List.dropWhile_suffix (l := x.reverse) isSpace
          have := List.reverse_prefix.2 this
          rw [List.reverse_reverse] at this
          exact this.isInfix
        have h2 : u <:+: s := ((List.suffix_cons e u).isInfix).trans (he ▸ tagEnd_infix s)
        exact (h1.trans (find_infix hf)).trans h2
      · exact List.nil_infix
    · exact List.nil_infix
  · exact List.nil_infix

theorem near_infix (s : Bytes) : near s <:+: s := by
  unfold near
  split
  · rename_i e u he
    split
    · rename_i x y hf
      split
      · have h2 : u <:+: s := ((List.suffix_cons e u).isInfix).trans (he ▸ tagEnd_infix s)
        refine List.IsInfix.trans ?_ h2
        cases h : find b!"</td>" u with
        | none => rw [h] at hf; exact find_infix hf
        | some z =>
          rw [h] at hf
          simp only [Option.some_or, Option.some.injEq] at hf
          exact find_infix (hf ▸ h)
      · exact List.nil_infix
    · exact List.nil_infix
  · exact List.nil_infix

theorem unmarked_of {s p : Bytes} (h : Unmarked s) (hp : p <:+: s) : marked p s = false := by
  obtain ⟨h1, h2, h3⟩ := h
  have a : ∀ w : Bytes, w ≠ [] → ¬ w <:+: s → has w p = false ∧ has w (near s) = false := fun w hw hn =>
    ⟨ElemAttrs.has_not hw fun h => hn (h.trans hp), ElemAttrs.has_not hw fun h => hn (h.trans (near_infix s))⟩
  simp only [marked, a _ (by decide) h1, a _ (by decide) h2, a _ (by decide) h3, Bool.or_false]

theorem match_nil (hD : D.attrs = []) (t a : Int) (g : Option Nat) (p : Bytes) : match? D t a g p = none := by
  unfold match?
  simp [hD]

theorem swallowed_nil (hD : D.attrs = []) {st : St} (h : st.prev = none) (g : Option Nat) : swallowed D st g = false := by
  unfold swallowed
  cases g <;> simp [hD, h]

theorem alignCell_plain (hx : x = c!"d" ∨ x = c!"h") (hc : c.Plain) (st : St) : ∃ k, alignCell st (cellOf x c u) = .val (.inr k) := by
  have hx' : x ≠ c!">" := by rcases hx with rfl | rfl <;> decide
  unfold alignCell
  simp only [(tags_of hx' hc).1, (tags_of hx' hc).2, closing_of hx, find_of hx hc]
  have : hasColon c.text = false := by
    unfold hasColon
    have h1 := hc.2.2.2.2.1
    have h2 := hc.2.2.2.2.2
    rw [List.getLast?_reverse]
    simp [h1, h2]
  simp only [this, Bool.false_eq_true, if_false]
  split
  · split
    · split
      · exact ⟨_, rfl⟩
      · exact ⟨_, rfl⟩
    · exact ⟨_, rfl⟩
  · exact ⟨_, rfl⟩

/-- The tables with headers of rows, behind a cell. -/
def headsAt (st : St) (s : Bytes) : List Int := if firstHead st s && emptyHead s then st.table :: st.heads else st.heads

theorem headsAt_eq (st : St) (s : Bytes) : (if (firstHead st s && emptyHead s) = true then { st with heads := st.table :: st.heads } else st) = { st with heads := headsAt st s } := by
  unfold headsAt
  split <;> rfl

theorem infix_if {b : Bool} (s : Bytes) : (if b = true then preview s else []) <:+: s := by
  split
  · exact preview_infix s
  · exact List.nil_infix

/-- A cell that stays as it is. -/
theorem cellTurn_keep (hD : D.attrs = []) {st : St} (hp : st.prev = none) (hx : x = c!"d" ∨ x = c!"h") (hc : c.Plain) (hs : Unmarked (cellOf x c u))
    (hh : begins b!"<th" (cellOf x c u) = true ∨ st.col ≠ 0 ∨ st.table ∉ headsAt st (cellOf x c u) ∨ ¬ st.table < 50)
    (hr : st.out.length + (cellOf x c []).length ≤ st.cap) :
    ∃ k, cellTurn D al st (cellOf x c u) = .val (.done { st with heads := headsAt st (cellOf x c u), col := k + 1, prev := none, out := st.out ++ cellOf x c [],
                                                                 written := st.written + (cellOf x c []).length } u) := by
  have hx' : x ≠ c!">" := by rcases hx with rfl | rfl <;> decide
  have hwhole : wholeCell (cellOf x c u) = (cellOf x c [], u) := by
    unfold wholeCell
    simp only [(tags_of hx' hc).1, (tags_of hx' hc).2, closing_of hx, find_of hx hc]
    simp [cellOf]
  unfold cellTurn
  simp only [headsAt_eq, match_nil hD, unmarked_of hs (infix_if _), swallowed_nil hD (st := { st with heads := headsAt st (cellOf x c u) }) hp, Option.any_none, Bool.or_false,
    Bool.and_false, Bool.false_eq_true, if_false, hwhole, Option.isNone_none, Bool.true_and]
  have hhead : (!begins b!"<th" (cellOf x c u) && st.inBody && st.inRow && decide (0 ≤ st.table) && decide (st.table < 50) &&
      decide (st.table ∈ headsAt st (cellOf x c u)) && decide (st.col = 0)) = false := by
    rcases hh with h | h | h | h <;> simp [h]
  simp only [hhead, Bool.false_eq_true, if_false, Bool.not_false, if_true]
  have hw : ∀ k, (do
      let st ← ({ st with heads := headsAt st (cellOf x c u), col := k + 1, prev := none } : St).write (cellOf x c [])
      C.val (Next.done st u)) = .val (.done { st with heads := headsAt st (cellOf x c u), col := k + 1, prev := none, out := st.out ++ cellOf x c [],
                                                      written := st.written + (cellOf x c []).length } u) := by
    intro k
    rw [write_eq (by exact hr)]
    rfl
  cases al with
  | false =>
    simp only [Bool.false_eq_true, if_false, C.val_bind, Nat.add_zero]
    exact ⟨_, hw _⟩
  | true =>
    obtain ⟨k, hk⟩ := alignCell_plain (u := u) hx hc { st with heads := headsAt st (cellOf x c u), prev := none }
    simp only [if_true, hk, C.val_bind]
    exact ⟨_, hw _⟩

/-- A cell that becomes a header. -/
theorem cellTurn_head (hD : D.attrs = []) {st : St} (hp : st.prev = none) (hc : c.Plain) (hs : Unmarked (cellOf c!"d" c u))
    (h1 : st.inBody = true) (h2 : st.inRow = true) (h3 : 0 ≤ st.table) (h4 : st.table < 50) (h5 : st.table ∈ st.heads) (h6 : st.col = 0)
    (hr : st.out.length + (21 + c.text.length) ≤ st.cap) :
    cellTurn D al st (cellOf c!"d" c u) = .val (.done { st with col := 1, prev := none, out := st.out ++ (b!"<th scope=\"row\">" ++ c.text ++ b!"</th>"),
                                                                 written := st.written + (21 + c.text.length) } u) := by
  have hx' : c!"d" ≠ c!">" := by decide
  have hfc : firstClose (c.text ++ [c!"<", c!"/", c!"t", c!"d", c!">"] ++ u) = some (c.text, u) := by
    have e1 := find_of (u := u) (.inl rfl) hc
    unfold firstClose
    rw [e1]
    cases e : find b!"</th>" (c.text ++ [c!"<", c!"/", c!"t", c!"d", c!">"] ++ u) with
    | none => rfl
    | some y =>
      rw [List.append_assoc] at e
      have := find_behind (d := c!"<") (w := b!"/th>") (t := b!"/td>" ++ u) (by decide) (by
        intro h
        simp [List.cons_prefix_cons] at h) hc.2.2.2.1 e
      simp only [this, if_true]
  have hha : headsAt st (cellOf c!"d" c u) = st.heads := by
    unfold headsAt firstHead
    have : begins b!"<th" (cellOf c!"d" c u) = false := rfl
    simp [this]
  unfold cellTurn
  simp only [headsAt_eq, match_nil hD, unmarked_of hs (infix_if _), swallowed_nil hD (st := { st with heads := headsAt st (cellOf c!"d" c u) }) hp, Option.any_none, Bool.or_false,
    Bool.and_false, Bool.false_eq_true, if_false]
  rw [hha]
  have hb : begins b!"<th" (cellOf c!"d" c u) = false := rfl
  have hhead : (!begins b!"<th" (cellOf c!"d" c u) && st.inBody && st.inRow && decide (0 ≤ st.table) && decide (st.table < 50) &&
      decide (st.table ∈ st.heads) && decide (st.col = 0)) = true := by
    simp [hb, h1, h2, h3, h4, h5, h6]
  simp only [hhead, if_true, (tags_of hx' hc).2, List.tail?_cons, Option.bind_some, hfc]
  rw [write_eq (by
    simp only [List.length_append]
    have e1 : (b!"<th scope=\"row\">").length = 16 := rfl
    have e2 : (b!"</th>").length = 5 := rfl
    omega)]
  simp only [C.val_bind, h6, List.length_append]
  have e1 : (b!"<th scope=\"row\">").length = 16 := rfl
  have e2 : (b!"</th>").length = 5 := rfl
  rw [show (b!"<th scope=\"row\">").length + c.text.length + (b!"</th>").length = 21 + c.text.length by omega]

/-! ### Rows -/

theorem tag_cell (hx : x = c!"d" ∨ x = c!"h") (hc : c.Plain) (st : St) : tagTurn D pos st (cellOf x c u) = .val (.go st (cellOf x c u)) ∧
    begins b!"<thead>" (cellOf x c u) = false := by
  have e1 : opensTable (cellOf x c u) = false := by rcases hx with rfl | rfl <;> rfl
  have e2 : begins b!"</table>" (cellOf x c u) = false := rfl
  have e3 : begins b!"<thead>" (cellOf x c u) = false := by
    rcases hx with rfl | rfl
    · rfl
    · have := hc.1
      unfold cellOf
      generalize c.attrs = a at this
      cases a with
      | nil => rfl
      | cons d a =>
        simp only [reduceCtorEq, List.head?_cons, Option.some.injEq, false_or] at this
        subst this
        rfl
  have e4 : begins b!"</thead>" (cellOf x c u) = false := rfl
  have e5 : begins b!"<tbody>" (cellOf x c u) = false := by rcases hx with rfl | rfl <;> rfl
  have e6 : begins b!"</tbody>" (cellOf x c u) = false := rfl
  have e7 : begins b!"<tr>" (cellOf x c u) = false := by rcases hx with rfl | rfl <;> rfl
  have e8 : begins b!"</tr>" (cellOf x c u) = false := rfl
  have e9 : begins b!"<p>" (cellOf x c u) = false := rfl
  refine ⟨?_, e3⟩
  simp only [tagTurn, e1, e2, e3, e4, e5, e6, e7, e8, e9, Bool.and_false, Bool.false_eq_true, if_false]

theorem opens_cell (hx : x = c!"d" ∨ x = c!"h") (hc : c.Plain) {st : St} (h : st.inRow = true) : opensCell st (cellOf x c u) = true := by
  have e1 := (tag_cell (D := ⟨[], [], [], [], []⟩) (pos := 0) (u := u) hx hc st).2
  have e2 : begins b!"<tbody>" (cellOf x c u) = false := by rcases hx with rfl | rfl <;> rfl
  have e3 : begins b!"<tfoot>" (cellOf x c u) = false := by rcases hx with rfl | rfl <;> rfl
  have e4 : (begins b!"<td" (cellOf x c u) || begins b!"<th" (cellOf x c u)) = true := by rcases hx with rfl | rfl <;> rfl
  simp only [opensCell, e1, e2, e3, e4, h, Bool.true_or, Bool.not_false, Bool.and_self]

theorem length_cell (u : Bytes) : (cellOf x c u).length = (cellOf x c []).length + u.length := by
  simp only [cellOf, List.length_cons, List.length_append, List.length_nil]
  omega

theorem Tr.keep {H' : List Int → Prop} (hD : D.attrs = []) (hx : x = c!"d" ∨ x = c!"h") (hc : c.Plain) (hs : Unmarked (cellOf x c (c!"\n" :: u)))
    (hh : ∀ st, At i true true bod hd H R J st → begins b!"<th" (cellOf x c (c!"\n" :: u)) = true ∨ st.col ≠ 0 ∨
      st.table ∉ headsAt st (cellOf x c (c!"\n" :: u)) ∨ ¬ st.table < 50)
    (hH : ∀ st, At i true true bod hd H R J st → H' (headsAt st (cellOf x c (c!"\n" :: u)))) :
    Tr D al pos K (At i true true bod hd H R J) (cellOf x c (c!"\n" :: u)) (cellOf x c b!"\n") u (At i true true bod hd H' R (· ≠ 0)) := by
  have e : cellOf x c b!"\n" = cellOf x c [] ++ b!"\n" := by simp [cellOf]
  rw [e]
  have hlt : (c!"\n" :: u).length < (cellOf x c (c!"\n" :: u)).length := by
    rw [length_cell (c!"\n" :: u)]
    have : 0 < (cellOf x c []).length := by simp [cellOf]
    omega
  refine Tr.seq (Q := At i true true bod hd H' R (· ≠ 0)) (Tr.cell At.free hlt ?_) (Tr.plain (t := b!"\n") (by decide) At.free)
  intro st h h2 h3 h4
  obtain ⟨k, hk⟩ := cellTurn_keep (al := al) hD h.2.2.2.2.2.2.2.1 hx hc hs (hh st h) (by omega)
  refine ⟨_, (tag_cell hx hc st).1, opens_cell hx hc h.2.2.1, hk, rfl, ?_, h3, ?_⟩
  · simp only [h2, List.length_append]
  · have hH' := hH st h
    obtain ⟨a1, a2, a3, a4, a5, a6, a7, a8, a9, a10⟩ := h
    exact ⟨a1, a2, a3, a4, a5, a6, hH', rfl, a9, by simp⟩

theorem headsAt_td (st : St) : headsAt st (cellOf c!"d" c u) = st.heads := by
  unfold headsAt firstHead
  have : begins b!"<th" (cellOf c!"d" c u) = false := rfl
  simp [this]

theorem td_eq (c : Spec.Cell) (u : Bytes) : c.td ++ u = cellOf c!"d" c (c!"\n" :: u) := by
  simp [Spec.Cell.td, cellOf]

theorem th_eq (c : Spec.Cell) (u : Bytes) : c.th ++ u = cellOf c!"h" c (c!"\n" :: u) := by
  simp [Spec.Cell.th, cellOf]

theorem unm {s t : Bytes} (h : Unmarked (s ++ t)) : Unmarked t :=
  ⟨fun a => h.1 (a.trans (List.suffix_append s t).isInfix), fun a => h.2.1 (a.trans (List.suffix_append s t).isInfix),
    fun a => h.2.2 (a.trans (List.suffix_append s t).isInfix)⟩

theorem Tr.tds (hD : D.attrs = []) (hJ : ∀ j, j ≠ 0 → J j) (hN : (∀ hs, H hs → i ∉ hs ∨ ¬ i < 50) ∨ ∀ j, J j → j ≠ 0) :
    ∀ {l : List Spec.Cell} {u : Bytes}, (∀ c ∈ l, c.Plain) → Unmarked (l.flatMap Spec.Cell.td ++ u) →
      Tr D al pos K (At i true true bod hd H R J) (l.flatMap Spec.Cell.td ++ u) (l.flatMap Spec.Cell.td) u (At i true true bod hd H R J)
  | [], u, _, _ => Tr.nil
  | c :: l, u, hl, hs => by
    rw [List.flatMap_cons, List.append_assoc] at hs ⊢
    refine Tr.seq ?_ (Tr.tds hD hJ hN (l := l) (fun c hc => hl c (List.mem_cons_of_mem _ hc)) (unm hs))
    rw [td_eq] at hs ⊢
    have e : c.td = cellOf c!"d" c b!"\n" := by simpa using td_eq c []
    rw [e]
    refine (Tr.keep (H' := H) hD (.inl rfl) (hl c List.mem_cons_self) hs ?_ ?_).imp (fun _ h => h) ?_
    · intro st h
      rcases hN with hN | hN
      · rcases hN _ h.2.2.2.2.2.2.1 with h' | h'
        · exact .inr (.inr (.inl (by rw [headsAt_td, h.1]; exact h')))
        · exact .inr (.inr (.inr (by rw [h.1]; exact h')))
      · exact .inr (.inl (hN _ h.2.2.2.2.2.2.2.2.2))
    · intro st h
      rw [headsAt_td]
      exact h.2.2.2.2.2.2.1
    · rintro st ⟨a1, a2, a3, a4, a5, a6, a7, a8, a9, a10⟩
      exact ⟨a1, a2, a3, a4, a5, a6, a7, a8, a9, hJ _ a10⟩

theorem Tr.row {l : List Spec.Cell} {u : Bytes} (hD : D.attrs = []) (hF : D.feet = []) (hN : ∀ hs, H hs → i ∉ hs ∨ ¬ i < 50) (hl : ∀ c ∈ l, c.Plain)
    (hs : Unmarked (Spec.row l ++ u)) :
    Tr D al pos K (At i true false true false H (fun _ => True) fun _ => True) (Spec.row l ++ u) (Spec.row l) u (At i true false true false H (fun _ => True) fun _ => True) := by
  unfold Spec.row at hs ⊢
  simp only [List.append_assoc] at hs ⊢
  refine Tr.seq (Tr.tr (R' := fun _ => True) hF fun _ _ => trivial) ?_
  refine Tr.seq ?_ Tr.tr_end
  exact (Tr.tds hD (J := fun _ => True) (fun _ _ => trivial) (.inl hN) hl (unm hs)).imp (fun _ ⟨a1, a2, a3, a4, a5, a6, a7, a8, a9, a10⟩ => ⟨a1, a2, a3, a4, a5, a6, a7, a8, a9, trivial⟩) fun _ h => h

theorem Tr.headedRow {l : List Spec.Cell} {u : Bytes} (hD : D.attrs = []) (hF : D.feet = []) (hN : ∀ hs, H hs → i ∈ hs) (hi : 0 ≤ i) (hi' : i < 50)
    (hl : ∀ c ∈ l, c.Plain) (hs : Unmarked (Spec.row l ++ u)) :
    Tr D al pos K (At i true false true false H (fun _ => True) fun _ => True) (Spec.row l ++ u) (Spec.headedRow l) u
      (At i true false true false H (fun _ => True) fun _ => True) := by
  cases l with
  | nil =>
    unfold Spec.row at hs ⊢
    simp only [List.append_assoc, Spec.headedRow, Spec.row] at hs ⊢
    refine Tr.seq (Tr.tr (R' := fun _ => True) hF fun _ _ => trivial) ?_
    exact Tr.seq (Tr.nil.imp (fun _ ⟨a1, a2, a3, a4, a5, a6, a7, a8, a9, a10⟩ => ⟨a1, a2, a3, a4, a5, a6, a7, a8, a9, trivial⟩) fun _ h => h) Tr.tr_end
  | cons c l =>
    unfold Spec.row at hs ⊢
    simp only [List.append_assoc, Spec.headedRow, List.flatMap_cons] at hs ⊢
    refine Tr.seq (Tr.tr (R' := fun _ => True) hF fun _ _ => trivial) ?_
    have hs1 := (unm hs)
    have hs2 := unm hs1
    have hw : b!"<th scope=\"row\">" ++ (c.text ++ (b!"</th>\n" ++ (l.flatMap Spec.Cell.td ++ b!"</tr>\n"))) =
        (b!"<th scope=\"row\">" ++ c.text ++ b!"</th>") ++ (b!"\n" ++ (l.flatMap Spec.Cell.td ++ b!"</tr>\n")) := by simp
    rw [hw]
    refine Tr.seq (Q := At i true true true false H (fun _ => True) (· ≠ 0)) ?_ (Tr.seq (Tr.plain (t := b!"\n") (by decide) At.free) (Tr.seq
      (Tr.tds hD (J := (· ≠ 0)) (fun _ h => h) (.inr fun _ h => h) (fun c hc => hl c (List.mem_cons_of_mem _ hc)) hs2)
      (Tr.tr_end.imp (fun _ ⟨a1, a2, a3, a4, a5, a6, a7, a8, a9, a10⟩ => ⟨a1, a2, a3, a4, a5, a6, a7, a8, a9, trivial⟩) fun _ h => h)))
    rw [td_eq] at hs1 ⊢
    refine Tr.cell At.free (by simp only [cellOf, List.length_cons, List.length_append]; omega) ?_
    intro st h h2 h3 h4
    have e1 : (b!"<th scope=\"row\">").length = 16 := rfl
    have e2 : (b!"</th>").length = 5 := rfl
    simp only [List.length_append] at h4
    have hk := cellTurn_head (al := al) hD h.2.2.2.2.2.2.2.1 (hl c List.mem_cons_self) hs1 h.2.2.2.1 h.2.2.1 (by rw [h.1]; exact hi) (by rw [h.1]; exact hi')
      (by rw [h.1]; exact hN _ h.2.2.2.2.2.2.1) h.2.2.2.2.2.2.2.2.2 (by omega)
    refine ⟨_, (tag_cell (.inl rfl) (hl c List.mem_cons_self) st).1, opens_cell (.inl rfl) (hl c List.mem_cons_self) h.2.2.1, hk, rfl, ?_, h3, ?_⟩
    · simp only [h2, List.length_append]
      omega
    · obtain ⟨a1, a2, a3, a4, a5, a6, a7, a8, a9, a10⟩ := h
      exact ⟨a1, a2, a3, a4, a5, a6, a7, rfl, a9, by simp⟩

theorem Tr.ths (hD : D.attrs = []) : ∀ {l : List Spec.Cell} {u : Bytes}, (∀ c ∈ l, c.Plain) → Unmarked (l.flatMap Spec.Cell.th ++ u) →
      Tr D al pos K (At i true true bod hd H R (· ≠ 0)) (l.flatMap Spec.Cell.th ++ u) (l.flatMap Spec.Cell.th) u (At i true true bod hd H R (· ≠ 0))
  | [], u, _, _ => Tr.nil
  | c :: l, u, hl, hs => by
    rw [List.flatMap_cons, List.append_assoc] at hs ⊢
    refine Tr.seq ?_ (Tr.ths hD (l := l) (fun c hc => hl c (List.mem_cons_of_mem _ hc)) (unm hs))
    rw [th_eq] at hs ⊢
    have e : c.th = cellOf c!"h" c b!"\n" := by simpa using th_eq c []
    rw [e]
    refine Tr.keep hD (.inr rfl) (hl c List.mem_cons_self) hs (fun _ _ => .inl rfl) ?_
    intro st h
    have : headsAt st (cellOf c!"h" c (c!"\n" :: (l.flatMap Spec.Cell.th ++ u))) = st.heads := by
      unfold headsAt firstHead
      simp [h.2.2.2.2.2.2.2.2.2]
    rw [this]
    exact h.2.2.2.2.2.2.1

/-! ### Tables -/

/-- The tables with headers of rows are before this one. -/
def Before (i : Int) (hs : List Int) : Prop := ∀ j ∈ hs, j < i

/-- This one has headers of rows, or not. -/
def After (i : Int) (b : Bool) (hs : List Int) : Prop := (i ∈ hs ↔ b = true) ∧ ∀ j ∈ hs, j ≤ i

theorem before_not {i : Int} {hs : List Int} (h : Before i hs) : i ∉ hs := fun h' => by have := h i h'; omega

/-- The header. -/
theorem Tr.head {t : Spec.Table} (hD : D.attrs = []) (hF : D.feet = []) (ht : t.Plain) (hi : 0 ≤ i)
    (hs : Unmarked (b!"<thead>\n<tr>\n" ++ t.head.flatMap Spec.Cell.th ++ b!"</tr>\n</thead>\n" ++ u)) :
    Tr D al pos K (At i true false false false (Before i) (· = -1) fun _ => True)
      (b!"<thead>\n<tr>\n" ++ t.head.flatMap Spec.Cell.th ++ b!"</tr>\n</thead>\n" ++ u) (b!"<thead>\n<tr>\n" ++ t.head.flatMap Spec.Cell.th ++ b!"</tr>\n</thead>\n") u
      (At i true false false false (After i (t.headed && decide (i < 50))) (fun _ => True) fun _ => True) := by
  obtain ⟨_, _, hh, _, hf⟩ := ht
  have e1 : b!"<thead>\n<tr>\n" = b!"<thead>\n" ++ b!"<tr>\n" := rfl
  have e2 : b!"</tr>\n</thead>\n" = b!"</tr>\n" ++ b!"</thead>\n" := rfl
  rw [e1, e2] at hs ⊢
  simp only [List.append_assoc] at hs ⊢
  have hs1 := unm (unm hs)
  refine Tr.seq Tr.thead (Tr.seq (Tr.tr (R' := (· = 0)) hF (by intro r h; omega)) (Tr.seq (Q := At i true true false true (After i (t.headed && decide (i < 50))) (fun _ => True) fun _ => True) ?_
    (Tr.seq Tr.tr_end Tr.thead_end)))
  unfold Spec.Table.headed
  generalize t.head = l at hh hf hs1 ⊢
  cases l with
  | nil =>
    refine Tr.nil.imp (fun _ h => h) ?_
    rintro st ⟨a1, a2, a3, a4, a5, a6, a7, a8, a9, a10⟩
    exact ⟨a1, a2, a3, a4, a5, a6, ⟨by simp [before_not a7], fun j hj => Int.le_of_lt (a7 j hj)⟩, a8, trivial, trivial⟩
  | cons c l =>
    rw [List.flatMap_cons, List.append_assoc] at hs1 ⊢
    have hr := hf c rfl
    have hcp := hh c List.mem_cons_self
    refine Tr.seq (Q := At i true true false true (After i (c.text.all isSpace && decide (i < 50))) (fun _ => True) (· ≠ 0)) ?_
      ((Tr.ths hD (fun c hc => hh c (List.mem_cons_of_mem _ hc)) (unm hs1)).imp (fun _ h => h) fun _ ⟨a1, a2, a3, a4, a5, a6, a7, a8, a9, a10⟩ =>
        ⟨a1, a2, a3, a4, a5, a6, a7, a8, trivial, trivial⟩)
    rw [th_eq] at hs1 ⊢
    have e : c.th = cellOf c!"h" c b!"\n" := by simpa using th_eq c []
    rw [e]
    refine (Tr.keep (H' := After i (c.text.all isSpace && decide (i < 50))) hD (.inr rfl) hcp hs1 (fun _ _ => .inl rfl) ?_).imp (fun _ h => h)
      fun _ ⟨a1, a2, a3, a4, a5, a6, a7, a8, a9, a10⟩ => ⟨a1, a2, a3, a4, a5, a6, a7, a8, trivial, a10⟩
    rintro st ⟨a1, a2, a3, a4, a5, a6, a7, a8, a9, a10⟩
    generalize hv : c!"\n" :: (l.flatMap Spec.Cell.th ++ (b!"</tr>\n" ++ (b!"</thead>\n" ++ u))) = v
    have hem : emptyHead (cellOf c!"h" c v) = c.text.all isSpace := by
      unfold emptyHead
      have hfi := find_of (x := c!"h") (u := v) (.inr rfl) hcp
      simp only [(tags_of (x := c!"h") (u := v) (by decide) hcp).1, (tags_of (x := c!"h") (u := v) (by decide) hcp).2, List.length_cons]
      rw [if_pos (by omega), hfi]
      simp only
      rw [if_pos (by omega)]
    have hb : begins b!"<th" (cellOf c!"h" c v) = true := rfl
    have hfh : firstHead st (cellOf c!"h" c v) = decide (i < 50) := by
      simp only [firstHead, a1, a2, a4, a5, a6, a9, a10, hb, hi]
      simp
    unfold headsAt
    rw [hem, hfh]
    cases hsp : c.text.all isSpace <;> by_cases h50 : i < 50 <;> simp only [h50, decide_true, decide_false, Bool.and_true, Bool.and_false, if_true, Bool.false_eq_true, if_false]
    · exact ⟨by simp [before_not a7], fun j hj => Int.le_of_lt (a7 j hj)⟩
    · exact ⟨by simp [before_not a7], fun j hj => Int.le_of_lt (a7 j hj)⟩
    · refine ⟨by simp [a1], fun j hj => ?_⟩
      rcases List.mem_cons.1 hj with h | h
      · omega
      · exact Int.le_of_lt (a7 j h)
    · exact ⟨by simp [before_not a7], fun j hj => Int.le_of_lt (a7 j hj)⟩

theorem Tr.rows {f : List Spec.Cell → Bytes} (h : ∀ l v, (∀ c ∈ l, c.Plain) → Unmarked (Spec.row l ++ v) → Tr D al pos K P (Spec.row l ++ v) (f l) v P) :
    ∀ {b : List (List Spec.Cell)} {u : Bytes}, (∀ r ∈ b, ∀ c ∈ r, c.Plain) → Unmarked (b.flatMap Spec.row ++ u) → Tr D al pos K P (b.flatMap Spec.row ++ u) (b.flatMap f) u P
  | [], u, _, _ => Tr.nil
  | r :: b, u, hb, hs => by
    rw [List.flatMap_cons, List.append_assoc] at hs ⊢
    exact Tr.seq (h r _ (hb r List.mem_cons_self) hs) (Tr.rows h (fun r hr => hb r (List.mem_cons_of_mem _ hr)) (unm hs))

/-- The rows of a table. -/
def rowsFor (b : Bool) : List Spec.Cell → Bytes := if b then Spec.headedRow else Spec.row

theorem Tr.body {b : Bool} {l : List (List Spec.Cell)} (hD : D.attrs = []) (hF : D.feet = []) (hi : 0 ≤ i) (hb : b = true → i < 50) (hl : ∀ r ∈ l, ∀ c ∈ r, c.Plain)
    (hs : Unmarked (Spec.bodyOf Spec.row l ++ u)) :
    Tr D al pos K (At i true false false false (After i b) (fun _ => True) fun _ => True) (Spec.bodyOf Spec.row l ++ u) (Spec.bodyOf (rowsFor b) l) u
      (At i true false false false (After i b) (fun _ => True) fun _ => True) := by
  unfold Spec.bodyOf at hs ⊢
  cases hl' : l.isEmpty with
  | true => simp only [if_true]; exact Tr.nil
  | false =>
    simp only [hl', Bool.false_eq_true, if_false, List.append_assoc] at hs ⊢
    refine Tr.seq Tr.tbody (Tr.seq (Tr.rows ?_ hl (unm hs)) Tr.tbody_end)
    intro l v h1 h2
    cases b with
    | true => exact Tr.headedRow hD hF (fun hs h => h.1.2 rfl) hi (hb rfl) h1 h2
    | false => exact Tr.row hD hF (fun hs h => .inl fun h' => by simpa using h.1.1 h') h1 h2

theorem caption_eq (t : Int) : caption D t = D.caps.lookup t := by
  unfold caption
  induction D.caps with
  | nil => rfl
  | cons c l ih =>
    rw [List.find?_cons, List.lookup_cons]
    by_cases h : c.1 = t
    · simp [h]
    · have h' : (t == c.1) = false := by simpa using fun e => h e.symm
      simp only [h, decide_false, h', ih]

theorem escape_eq (s : Bytes) : escape s = Spec.escape s := by
  induction s with
  | nil => rfl
  | cons c s ih =>
    unfold escape at ih ⊢
    rw [List.flatMap_cons, ih, Spec.escape]

/-- Outside of tables; `n` tables have been. -/
def Out (n : Nat) : St → Prop := At ((n : Int) - 1) false false false false (Before n) (fun _ => True) fun _ => True

/-- What is in front of a table. -/
def front (pos : Int) : Option Bytes → Bytes
  | some c => if pos = 0 then b!"<figure class=\"table-figure\">\n<figcaption>" ++ escape c ++ b!"</figcaption>\n" else b!"<figure class=\"table-figure\">\n"
  | none => []

/-- What is behind a table. -/
def back (pos : Int) : Option Bytes → Bytes
  | some c => b!"</table>" ++ (if pos = 1 then b!"<figcaption>" ++ escape c ++ b!"</figcaption>\n" else []) ++ b!"</figure>\n"
  | none => b!"</table>"

theorem figure_eq (o : Option Bytes) {st : St} (h : st.written = st.out.length) (hK : K ≤ st.cap) (hr : st.out.length + (front pos o).length ≤ K) :
    ∃ k, K ≤ k ∧ figure o pos false st = .val { st with out := st.out ++ front pos o, written := st.written + (front pos o).length, cap := k } := by
  unfold figure
  cases o with
  | none => exact ⟨st.cap, hK, by simp [front]⟩
  | some c =>
    simp only [front] at hr ⊢
    split
    · rename_i hp
      rw [if_pos hp] at hr
      obtain ⟨k, hk, e⟩ := room_eq h (b!"<figure class=\"table-figure\">\n<figcaption>".length + c.length * 6 + 14 + 100)
      refine ⟨k, by omega, ?_⟩
      rw [e, write_eq (by simp only; omega)]
    · rename_i hp
      rw [if_neg hp] at hr
      obtain ⟨k, hk, e⟩ := room_eq h (30 + 100)
      refine ⟨k, by omega, ?_⟩
      simp only [Bool.not_false, Bool.or_true, if_true]
      rw [e, write_eq (by simp only; omega)]

theorem opens_table {t : Spec.Table} (ht : t.Plain) : opensTable (b!"<table" ++ (t.attrs ++ (b!">\n" ++ u))) = true ∧
    begins b!"<tableid=" (b!"<table" ++ (t.attrs ++ (b!">\n" ++ u))) = false := by
  have := ht.1
  generalize t.attrs = a at this
  cases a with
  | nil => exact ⟨rfl, rfl⟩
  | cons d a =>
    simp only [reduceCtorEq, List.head?_cons, Option.some.injEq, false_or] at this
    subst this
    exact ⟨rfl, rfl⟩

theorem Tr.table_open {t : Spec.Table} {n : Nat} (ht : t.Plain) : Tr D al pos K (Out n) (b!"<table" ++ (t.attrs ++ (b!">\n" ++ u)))
    (front pos (caption D n) ++ (b!"<table" ++ (t.attrs ++ b!">\n"))) u (At n true false false false (Before n) (· = -1) fun _ => True) := by
  have hw : front pos (caption D n) ++ (b!"<table" ++ (t.attrs ++ b!">\n")) = (front pos (caption D n) ++ [c!"<"]) ++ (b!"table" ++ t.attrs ++ b!">\n") := by simp
  have hu : b!"<table" ++ (t.attrs ++ (b!">\n" ++ u)) = c!"<" :: ((b!"table" ++ t.attrs ++ b!">\n") ++ u) := by simp
  have ho := opens_table (u := u) ht
  rw [hw, hu]
  rw [hu] at ho
  refine Tr.seq (Q := At n true false false false (Before n) (· = -1) fun _ => True) (Tr.go At.free At.free (Nat.le_refl _) ?_) (Tr.plain ?_ At.free)
  · rintro st ⟨a1, a2, a3, a4, a5, a6, a7, a8, a9, a10⟩ h2 h3 h4
    have hn : st.table + 1 = n := by omega
    obtain ⟨k, hk, e⟩ := figure_eq (pos := pos) (K := K) (caption D n) (st := { st with inTable := true, table := st.table + 1, row := -1, inHead := false }) h2 h3 (by simp only; omega)
    refine ⟨{ st with inTable := true, table := st.table + 1, row := -1, inHead := false, out := st.out ++ front pos (caption D n),
                      written := st.written + (front pos (caption D n)).length, cap := k }, ?_, ?_, rfl, ?_, hk, hn, rfl, a3, a4, a5, rfl, a7, a8, rfl, trivial⟩
    · simp only [tagTurn, ho.1, if_true, tableTurn, ho.2, Bool.false_eq_true, if_false]
      rw [show (caption D (st.table + 1)) = caption D n by rw [hn], e]
      rfl
    · simp only [opensCell, a3, Bool.or_false, Bool.false_and]
    · simp only [h2, List.length_append]
  · simp only [List.mem_append, not_or]
    exact ⟨⟨by decide, ht.2.1⟩, by decide⟩

theorem Tr.table_close {n : Nat} {b : Bool} : Tr D al pos K (At n true false false false (After n b) (fun _ => True) fun _ => True) (b!"</table>\n" ++ u)
    (back pos (caption D n) ++ b!"\n") u (Out (n + 1)) := by
  have hout : ∀ st : St, At n true false false false (After n b) (fun _ => True) (fun _ => True) st → ∀ o w k,
      Out (n + 1) { st with inTable := false, out := o, written := w, cap := k } := by
    rintro st ⟨a1, a2, a3, a4, a5, a6, a7, a8, a9, a10⟩ o w k
    exact ⟨by simp only [a1]; omega, rfl, a3, a4, a5, a6, fun j hj => by have := a7.2 j hj; omega, a8, trivial, trivial⟩
  have e1 : opensTable (b!"</table>\n" ++ u) = false := rfl
  have e2 : begins b!"</table>" (b!"</table>\n" ++ u) = true := rfl
  cases hc : caption D n with
  | none =>
    refine Tr.tag (w := b!"/table>\n") At.free At.free (by decide) ?_
    intro st h
    refine ⟨{ st with inTable := false }, ?_, ?_, rfl, rfl, rfl, hout st h st.out st.written st.cap⟩
    · show tagTurn D pos st (b!"</table>\n" ++ u) = _
      simp only [tagTurn, e1, e2, Bool.false_eq_true, if_false, if_true, closeTurn, h.2.2.2.2.1, h.2.2.2.1, C.val_bind, h.1, hc]
      rfl
    · simp only [opensCell, h.2.2.1, h.2.2.2.2.2.1, Bool.or_false, Bool.false_and]
  | some c =>
    refine Tr.seq (Q := Out (n + 1)) (t := b!"\n" ++ u) (Tr.done At.free (by simp only [List.length_append, List.length_cons, List.length_nil]; omega) ?_) (Tr.plain (t := b!"\n") (by decide) At.free)
    intro st h h2 h3 h4
    have ed : (b!"</table>\n" ++ u).drop 8 = b!"\n" ++ u := rfl
    simp only [back, List.length_append] at h4
    have l1 : (b!"</table>").length = 8 := rfl
    have l2 : (b!"</figure>\n").length = 10 := rfl
    simp only [tagTurn, e1, e2, Bool.false_eq_true, if_false, if_true, closeTurn, h.2.2.2.2.1, h.2.2.2.1, C.val_bind, h.1, hc, ed]
    rw [write_eq (by omega)]
    simp only [C.val_bind]
    by_cases hp : pos = 1
    · simp only [hp, if_true] at h4 ⊢
      obtain ⟨k, hk, e⟩ := room_eq (st := { st with out := st.out ++ b!"</table>", written := st.written + (b!"</table>").length })
        (by simp only [h2, List.length_append]) (12 + c.length * 6 + 14 + 100)
      rw [e, write_eq (by simp only [List.length_append] at h4 ⊢; simp only at hk; omega)]
      simp only [C.val_bind]
      obtain ⟨k', hk', e'⟩ := room_eq (st := { st with out := st.out ++ b!"</table>" ++ (b!"<figcaption>" ++ escape c ++ b!"</figcaption>\n"), cap := k, written := st.written +
          (b!"</table>").length + (b!"<figcaption>" ++ escape c ++ b!"</figcaption>\n").length }) (by simp only [h2, List.length_append]) (10 + 100)
      rw [e', write_eq (by simp only [List.length_append] at h4 ⊢; simp only at hk hk'; omega)]
      refine ⟨_, rfl, ?_, ?_, ?_, hout st h _ _ _⟩
      · simp only [back, if_true, List.append_assoc]
      · simp only [h2, List.length_append]
      · simp only at hk hk' ⊢
        omega
    · simp only [hp, if_false] at h4 ⊢
      obtain ⟨k', hk', e'⟩ := room_eq (st := { st with out := st.out ++ b!"</table>", written := st.written + (b!"</table>").length }) (by simp only [h2, List.length_append]) (10 + 100)
      rw [e', write_eq (by simp only [List.length_append, List.length_nil] at h4 ⊢; simp only at hk'; omega)]
      refine ⟨_, rfl, ?_, ?_, ?_, hout st h _ _ _⟩
      · simp only [back, hp, if_false, List.append_assoc, List.nil_append]
      · simp only [h2, List.length_append]
      · simp only at hk' ⊢
        omega

/-! ### Text -/

theorem differs_not {w : Bytes} : ∀ {u v : Bytes}, differs w u = true → ¬ w <+: u ++ v := by
  induction w with
  | nil => intro u v h; simp [differs] at h
  | cons a w ih =>
    intro u v h
    cases u with
    | nil => simp [differs] at h
    | cons b u =>
      simp only [differs, Bool.or_eq_true, bne_iff_ne] at h
      rw [List.cons_append, List.cons_prefix_cons]
      rintro ⟨h1, h2⟩
      rcases h with h | h
      · exact h h1
      · exact ih h h2

theorem begins_iff {w s : Bytes} : begins w s = true ↔ w <+: s := List.isPrefixOf_iff_prefix

theorem begins_not {w s : Bytes} (h : ¬ w <+: s) : begins w s = false := by
  cases e : begins w s with
  | false => rfl
  | true => exact absurd (begins_iff.1 e) h

theorem drop_prefix {p : Byte → Bool} {a s : Bytes} (h : a <+: s) : a.dropWhile p = [] ∨ a.dropWhile p <+: s.dropWhile p := by
  obtain ⟨t, rfl⟩ := h
  by_cases e : a.dropWhile p = []
  · exact .inl e
  · refine .inr ?_
    rw [(IalTree.takeWhile_app (t := t)).2 e]
    exact List.prefix_append _ _

theorem not_caption {v u : Bytes} (h1 : differs b!"[" (v.dropWhile isSpace) = true) (h2 : differs b!"&lt;" (v.dropWhile isSpace) = true)
    (h3 : differs b!":" (v.dropWhile isSpace) = true) {a : Bytes} (ha : a <+: v ++ u) : looksLike (a.dropWhile isSpace) = false := by
  have hv : v.dropWhile isSpace ≠ [] := by intro e; rw [e] at h1; simp [differs] at h1
  have hd := (IalTree.takeWhile_app (p := isSpace) (t := u)).2 hv
  rcases drop_prefix (p := isSpace) ha with e | e
  · rw [e]; rfl
  · rw [hd] at e
    generalize a.dropWhile isSpace = t at e
    cases t with
    | nil => rfl
    | cons d t =>
      have g1 : d ≠ c!"[" := by
        rintro rfl
        exact differs_not h1 (List.IsPrefix.trans ⟨t, rfl⟩ e)
      have g3 : d ≠ c!":" := by
        rintro rfl
        exact differs_not h3 (List.IsPrefix.trans ⟨t, rfl⟩ e)
      have g2 : begins b!"&lt;" (d :: t) = false := begins_not fun h => differs_not h2 (h.trans e)
      simp [looksLike, g1, g2, g3]

theorem Tr.text {n : Nat} : ∀ {t : Bytes} {u : Bytes}, quiet t = true → Tr D al pos K (Out n) (t ++ u) t u (Out n)
  | [], _, _ => Tr.nil
  | c :: t, u, h => by
    rw [quiet, Bool.and_eq_true] at h
    refine Tr.seq (w := [c]) (Tr.go (v := []) At.free At.free (Nat.le_refl _) ?_) (Tr.text h.2)
    intro st hst h2 h3 _
    by_cases hc : c = c!"<"
    · subst hc
      have hq := h.1
      simp only [bne_self_eq_false, Bool.false_or, Bool.and_eq_true, Bool.or_eq_true] at hq
      obtain ⟨⟨q1, q2⟩, q3⟩ := hq
      have e1 : begins b!"<table" (c!"<" :: (t ++ u)) = false := begins_not (differs_not (u := c!"<" :: t) (v := u) q1)
      have e2 : begins b!"</table>" (c!"<" :: (t ++ u)) = false := begins_not (differs_not (u := c!"<" :: t) (v := u) q2)
      obtain ⟨a1, a2, a3, a4, a5, a6, a7, a8, a9, a10⟩ := hst
      have hcell : ∀ p : Int, opensCell { st with para := p } (c!"<" :: (t ++ u)) = false := by
        intro p
        simp only [opensCell, a3, a6, Bool.or_false, Bool.false_and]
      have hand : ∀ b : Bool, (st.inTable && b) = false := by intro b; rw [a2]; rfl
      have handr : ∀ b : Bool, (st.inRow && b) = false := by intro b; rw [a3]; rfl
      by_cases hp : begins b!"<p>" (c!"<" :: (t ++ u)) = true
      · refine ⟨{ st with para := st.para + 1 }, ?_, hcell _, by simp, h2, h3, a1, a2, a3, a4, a5, a6, a7, a8, a9, a10⟩
        show tagTurn D pos st (c!"<" :: (t ++ u)) = .val (.go { st with para := st.para + 1 } (c!"<" :: (t ++ u)))
        simp only [tagTurn, opensTable, e1, e2, hand, handr, hp, Bool.false_and, Bool.false_eq_true, if_false, if_true]
        rcases q3 with q3 | q3
        · exact absurd (begins_iff.1 hp) (differs_not (u := c!"<" :: t) (v := u) q3)
        · obtain ⟨⟨q4, q5⟩, q6⟩ := q3
          have hlen : 2 ≤ t.length := by
            apply Decidable.byContradiction
            intro hh
            rw [List.drop_eq_nil_of_le (by omega)] at q4
            simp [differs] at q4
          have hdr : (c!"<" :: (t ++ u)).drop 3 = t.drop 2 ++ u := by
            show (t ++ u).drop 2 = _
            rw [List.drop_append_of_le_length hlen]
          unfold paraTurn
          rw [hdr]
          cases hf : find b!"</p>" (t.drop 2 ++ u) with
          | none => rfl
          | some z =>
            obtain ⟨body, rest⟩ := z
            have hb : body <+: t.drop 2 ++ u := by
              rw [Embed.find_some hf]
              exact ⟨b!"</p>" ++ rest, by simp⟩
            simp only [not_caption q4 q5 q6 hb, Bool.false_eq_true, if_false]
      · have hp' : begins b!"<p>" (c!"<" :: (t ++ u)) = false := by simpa using hp
        refine ⟨st, ?_, hcell st.para, by simp, h2, h3, a1, a2, a3, a4, a5, a6, a7, a8, a9, a10⟩
        show tagTurn D pos st (c!"<" :: (t ++ u)) = .val (.go st (c!"<" :: (t ++ u)))
        simp only [tagTurn, opensTable, e1, e2, hand, handr, hp', Bool.false_and, Bool.false_eq_true, if_false]
    · exact ⟨st, tag_plain hc st, cell_plain hc st, by simp, h2, h3, hst⟩

/-! ### Captions -/

theorem not_in_brackets {c : Bytes} (h : ¬ b!"</p>" <:+: c) : ¬ b!"</p>" <:+: b!"[" ++ c ++ b!"]" := by
  rintro ⟨a, b, e⟩
  cases a with
  | nil => simp at e
  | cons x a =>
    rcases List.eq_nil_or_concat b with rfl | ⟨b, y, rfl⟩
    · have := congrArg (fun l : Bytes => l.reverse.head?) e
      simp at this
    · refine h ⟨a, b, ?_⟩
      simp only [List.cons_append, List.nil_append, List.cons.injEq, List.append_assoc] at e
      have e2 : (a ++ (b!"</p>" ++ b)) ++ [y] = c ++ [c!"]"] := by simpa using e.2
      have := (List.append_inj' e2 rfl).1
      simpa using this

theorem Tr.dropped {n : Nat} {c : Bytes} (h0 : c ≠ []) (h1 : c.length < 512) (h2 : c!"]" ∉ c) (h3 : ¬ b!"</p>" <:+: c) (h4 : ∃ m, (m, c) ∈ D.caps) :
    Tr D al pos K (Out n) (b!"<p>[" ++ c ++ b!"]</p>\n" ++ u) b!"\n" u (Out n) := by
  have hs : b!"<p>[" ++ c ++ b!"]</p>\n" ++ u = c!"<" :: (b!"p>[" ++ c ++ b!"]</p>\n" ++ u) := rfl
  have hdr : (c!"<" :: (b!"p>[" ++ c ++ b!"]</p>\n" ++ u)).drop 3 = (b!"[" ++ c ++ b!"]") ++ c!"<" :: b!"/p>" ++ (b!"\n" ++ u) := by simp
  have hf := (Embed.find_eq (d := c!"<") (w := b!"/p>") (by decide) (b!"[" ++ c ++ b!"]") (b!"\n" ++ u)).2 (not_in_brackets h3)
  have hdw : (b!"[" ++ c ++ b!"]").dropWhile isSpace = b!"[" ++ c ++ b!"]" := by
    have : isSpace c!"[" = false := by decide
    simp [this]
  have hll : looksLike (b!"[" ++ c ++ b!"]") = true := by simp [looksLike]
  have hpc : paraCaption (b!"[" ++ c ++ b!"]") = some c := by
    have hsp := (Images.span_at (p := fun b => b ≠ c!"]") (s := c) (c := c!"]") (t := []) (by
      intro x hx
      simpa using fun e : x = c!"]" => h2 (e ▸ hx)) (by decide)).1
    simp only [paraCaption]
    rw [if_pos (by simp), if_pos (by simp)]
    show some ((c ++ [c!"]"]).takeWhile _) = _
    rw [hsp]
  have hcap : ((some c).any fun c => decide (c ≠ []) && decide (c.length < 512) && D.caps.any fun x => decide (x.2 = c)) = true := by
    obtain ⟨m, hm⟩ := h4
    simp only [Option.any_some, Bool.and_eq_true, decide_eq_true_eq, List.any_eq_true]
    exact ⟨⟨h0, h1⟩, _, hm, rfl⟩
  have e1 : opensTable (c!"<" :: (b!"p>[" ++ c ++ b!"]</p>\n" ++ u)) = false := rfl
  have e2 : begins b!"</table>" (c!"<" :: (b!"p>[" ++ c ++ b!"]</p>\n" ++ u)) = false := rfl
  have e3 : begins b!"<p>" (c!"<" :: (b!"p>[" ++ c ++ b!"]</p>\n" ++ u)) = true := rfl
  have hgo : ∀ st : St, Out n st → ∃ st1 : St, (tagTurn D pos st (c!"<" :: (b!"p>[" ++ c ++ b!"]</p>\n" ++ u)) = .val (.done st1 (b!"\n" ++ u)) ∨
      tagTurn D pos st (c!"<" :: (b!"p>[" ++ c ++ b!"]</p>\n" ++ u)) = .val (.go st1 (b!"\n" ++ u))) ∧ st1 = { st with para := st.para + 1 } := by
    rintro st ⟨a1, a2, a3, a4, a5, a6, a7, a8, a9, a10⟩
    refine ⟨_, ?_, rfl⟩
    simp only [tagTurn, e1, e2, e3, a2, a3, Bool.false_and, Bool.false_eq_true, if_false, if_true, paraTurn, hdr, hf, hdw, hll, hpc, hcap]
    split
    · exact .inl rfl
    · exact .inr rfl
  intro st hst hw hK hl
  obtain ⟨k, hk, eg⟩ := grow_eq hw
  obtain ⟨st1, ht, rfl⟩ := hgo { st with cap := k } hst
  have ho : Out n { st with cap := k, para := st.para + 1 } := hst
  rw [hs]
  have hl' : st.out.length + 1 ≤ K := hl
  rcases ht with ht | ht
  · obtain ⟨st2, b1, b2, b3, b4, b5⟩ := Tr.plain (D := D) (al := al) (pos := pos) (K := K) (t := b!"\n") (u := u) (by decide) At.free _ ho hw (Nat.le_trans hK hk) hl
    refine ⟨st2, .step ?_ ?_ b1, b2, b3, b4, b5⟩
    · rw [turn, eg, ht]; rfl
    · simp only [List.length_append, List.length_cons, List.length_nil]; omega
  · refine ⟨{ st with cap := k, para := st.para + 1, out := st.out ++ b!"\n", written := st.written + 1 }, .one ?_ ?_, rfl, ?_, Nat.le_trans hK hk, ho⟩
    · rw [turn, eg, ht]
      simp only [C.val_bind]
      rw [show opensCell { st with cap := k, para := st.para + 1 } (b!"\n" ++ u) = false from cell_plain (by decide) _]
      show (do let st ← ({ st with cap := k, para := st.para + 1 } : St).write b!"\n"; C.val (st, u)) = _
      rw [write_eq (by show st.out.length + 1 ≤ k; omega)]
      rfl
    · simp only [List.length_append, List.length_cons, List.length_nil]; omega
    · simp only [hw, List.length_append, List.length_cons, List.length_nil]

/-! ### Pages -/

theorem wanted_table {n : Nat} {t : Spec.Table} (hp : D.caps = [] ∨ pos = 0 ∨ pos = 1) : t.wanted D.caps (pos = 1) n =
    front pos (caption D n) ++ t.upTo (rowsFor (t.headed && decide ((n : Int) < 50))) ++ (back pos (caption D n) ++ b!"\n") := by
  unfold Spec.Table.wanted
  rw [caption_eq]
  have e : (if (t.headed && decide (n < 50)) = true then Spec.headedRow else Spec.row) = rowsFor (t.headed && decide ((n : Int) < 50)) := by
    unfold rowsFor
    rw [show decide ((n : Int) < 50) = decide (n < 50) by simp; omega]
  simp only [e]
  cases hc : D.caps.lookup (n : Int) with
  | none => simp [front, back]
  | some c =>
    rcases hp with hp | rfl | rfl
    · rw [hp] at hc
      simp at hc
    · simp [Spec.figure, front, back, escape_eq]
    · simp [Spec.figure, front, back, escape_eq]

theorem Tr.pages (hD : D.attrs = []) (hF : D.feet = []) (hp : D.caps = [] ∨ pos = 0 ∨ pos = 1) : ∀ {l : List Spec.Piece} {n : Nat}, (∀ p ∈ l, p.Plain D.caps) →
    Unmarked (l.flatMap Spec.Piece.html) → Tr D al pos K (Out n) (l.flatMap Spec.Piece.html) (Spec.wanted D.caps (pos = 1) n l) [] fun _ => True
  | [], n, _, _ => Tr.nil.imp (fun _ h => h) fun _ _ => trivial
  | .text t :: l, n, hl, hs => by
    rw [List.flatMap_cons] at hs ⊢
    have := hl _ List.mem_cons_self
    exact Tr.seq (Tr.text this) (Tr.pages hD hF hp (fun p h => hl p (List.mem_cons_of_mem _ h)) (unm hs))
  | .caption c :: l, n, hl, hs => by
    rw [List.flatMap_cons] at hs ⊢
    obtain ⟨h0, h1, h2, h3, h4⟩ := hl _ List.mem_cons_self
    exact Tr.seq (Tr.dropped h0 h1 h2 h3 h4) (Tr.pages hD hF hp (fun p h => hl p (List.mem_cons_of_mem _ h)) (unm hs))
  | .table t :: l, n, hl, hs => by
    rw [List.flatMap_cons] at hs ⊢
    have ht : t.Plain := hl _ List.mem_cons_self
    rw [Spec.wanted, wanted_table hp]
    refine Tr.seq (Q := Out (n + 1)) ?_ (Tr.pages hD hF hp (fun p h => hl p (List.mem_cons_of_mem _ h)) (unm hs))
    simp only [Spec.Piece.html, Spec.Table.html, Spec.Table.upTo] at hs ⊢
    generalize l.flatMap Spec.Piece.html = u at hs ⊢
    have r1 : b!"<table" ++ t.attrs ++ b!">\n" ++ (b!"<thead>\n<tr>\n" ++ t.head.flatMap Spec.Cell.th ++ b!"</tr>\n</thead>\n") ++ Spec.bodyOf Spec.row t.body ++ b!"</table>\n" ++ u =
        b!"<table" ++ (t.attrs ++ (b!">\n" ++ ((b!"<thead>\n<tr>\n" ++ t.head.flatMap Spec.Cell.th ++ b!"</tr>\n</thead>\n") ++
          (Spec.bodyOf Spec.row t.body ++ (b!"</table>\n" ++ u))))) := by simp only [List.append_assoc]
    have r2 : ∀ f, front pos (caption D n) ++ (b!"<table" ++ t.attrs ++ b!">\n" ++ (b!"<thead>\n<tr>\n" ++ t.head.flatMap Spec.Cell.th ++ b!"</tr>\n</thead>\n") ++ Spec.bodyOf f t.body) ++
        (back pos (caption D n) ++ b!"\n") = (front pos (caption D n) ++ (b!"<table" ++ (t.attrs ++ b!">\n"))) ++ ((b!"<thead>\n<tr>\n" ++ t.head.flatMap Spec.Cell.th ++ b!"</tr>\n</thead>\n") ++
          (Spec.bodyOf f t.body ++ (back pos (caption D n) ++ b!"\n"))) := by intro f; simp only [List.append_assoc]
    rw [r1] at hs ⊢
    rw [r2]
    have hs1 := unm (unm (unm hs))
    exact Tr.seq (Tr.table_open ht) (Tr.seq (Tr.head hD hF ht (by omega) hs1) (Tr.seq (Tr.body hD hF (by omega) (by simp) ht.2.2.2.1 (unm hs1)) Tr.table_close))

theorem literal_free : ∀ {n : Nat} {s : Bytes}, ¬ b!"APEXLTLT" <:+: s → literal n s = s
  | 0, [], _ => rfl
  | _ + 1, [], _ => rfl
  | 0, _ :: _, _ => rfl
  | n + 1, c :: s, h => by
    have e : begins b!"APEXLTLT" (c :: s) = false := begins_not fun hp => h hp.isInfix
    simp only [literal, e, Bool.false_eq_true, if_false]
    rw [literal_free fun hi => h (hi.trans (List.infix_cons (List.infix_refl s)))]

/-- The loop on a whole page. -/
theorem run_pages (hD : D.attrs = []) (hF : D.feet = []) (hp : D.caps = [] ∨ pos = 0 ∨ pos = 1) {l : List Spec.Piece} (hl : ∀ p ∈ l, p.Plain D.caps)
    (hs : Unmarked (l.flatMap Spec.Piece.html)) (hlen : (Spec.wanted D.caps (pos = 1) 0 l).length < (l.flatMap Spec.Piece.html).length * 2)
    (ha : ¬ b!"APEXLTLT" <:+: Spec.wanted D.caps (pos = 1) 0 l) :
    (do let o ← loop D al pos (l.flatMap Spec.Piece.html).length (start ((l.flatMap Spec.Piece.html).length * 2)) (l.flatMap Spec.Piece.html)
        C.val (literal o.length o)) = .val (Spec.wanted D.caps (pos = 1) 0 l) := by
  have h0 : Out 0 (start ((l.flatMap Spec.Piece.html).length * 2)) := by
    refine ⟨rfl, rfl, rfl, rfl, rfl, rfl, ?_, ?_, ?_, ?_⟩ <;> simp [start, Before]
  obtain ⟨st, h1, h2, _, h4, _⟩ := Tr.pages (al := al) (K := (l.flatMap Spec.Piece.html).length * 2) hD hF hp hl hs _ h0 rfl (Nat.le_refl _)
    (by show 0 + _ ≤ _; omega)
  rw [loop_end h1, h2]
  rw [show (start ((l.flatMap Spec.Piece.html).length * 2)).out ++ Spec.wanted D.caps (pos = 1) 0 l = Spec.wanted D.caps (pos = 1) 0 l from rfl]
  rw [finish_val (by omega), C.val_bind, literal_free ha]
end

end

/-! ### How long the page becomes -/

theorem row_length (r : List Spec.Cell) : (Spec.headedRow r).length ≤ (Spec.row r).length * 2 := by
  cases r with
  | nil => simp [Spec.headedRow]; omega
  | cons c l => simp [Spec.headedRow, Spec.row, Spec.Cell.td]; omega

theorem rows_length {f : List Spec.Cell → Bytes} (h : ∀ r, (f r).length ≤ (Spec.row r).length * 2) :
    ∀ l : List (List Spec.Cell), (l.flatMap f).length ≤ (l.flatMap Spec.row).length * 2
  | [] => by simp
  | r :: l => by
    have := rows_length h l
    have := h r
    simp only [List.flatMap_cons, List.length_append]
    omega

theorem table_length {f : List Spec.Cell → Bytes} (h : ∀ r, (f r).length ≤ (Spec.row r).length * 2) (t : Spec.Table) :
    (t.upTo f ++ b!"</table>\n").length < t.html.length * 2 := by
  have := rows_length h t.body
  simp only [Spec.Table.html, Spec.Table.upTo, Spec.bodyOf]
  generalize t.body.flatMap f = x at *
  generalize t.body.flatMap Spec.row = y at *
  generalize t.head.flatMap Spec.Cell.th = z at *
  split
  · simp only [List.length_append, List.length_cons, List.length_nil]; omega
  · simp only [List.length_append, List.length_cons, List.length_nil]; omega

theorem wanted_length (b : Bool) : ∀ (l : List Spec.Piece) (n : Nat), (∀ p ∈ l, p.Plain []) →
    (Spec.wanted [] b n l).length < (l.flatMap Spec.Piece.html).length * 2 ∨ (l.flatMap Spec.Piece.html = [] ∧ Spec.wanted [] b n l = [])
  | [], _, _ => .inr ⟨rfl, rfl⟩
  | .text [] :: l, n, h => wanted_length b l n fun p hp => h p (List.mem_cons_of_mem _ hp)
  | .text (c :: t) :: l, n, h => by
    have := wanted_length b l n fun p hp => h p (List.mem_cons_of_mem _ hp)
    refine .inl ?_
    simp only [List.flatMap_cons, Spec.wanted, Spec.Piece.html, List.length_append, List.length_cons]
    rcases this with h | ⟨h1, h2⟩
    · omega
    · rw [h1, h2]; simp
  | .caption c :: l, _, h => by
    obtain ⟨_, _, _, _, n, hn⟩ := h _ List.mem_cons_self
    simp at hn
  | .table t :: l, n, h => by
    have := wanted_length b l (n + 1) fun p hp => h p (List.mem_cons_of_mem _ hp)
    refine .inl ?_
    have h1 : (t.wanted [] b n).length < t.html.length * 2 := by
      show (t.upTo _ ++ b!"</table>\n").length < _
      apply table_length
      intro r
      split
      · exact row_length r
      · omega
    simp only [List.flatMap_cons, Spec.wanted, Spec.Piece.html, List.length_append]
    rcases this with h | ⟨h2, h3⟩
    · omega
    · rw [h2, h3]; simp; omega

theorem wanted_no_table (b : Bool) : ∀ (l : List Spec.Piece) (n : Nat), (∀ p ∈ l, p.Plain []) → ¬ b!"<thead>" <:+: l.flatMap Spec.Piece.html →
    Spec.wanted [] b n l = l.flatMap Spec.Piece.html
  | [], _, _, _ => rfl
  | .text t :: l, n, h, hi => by
    rw [List.flatMap_cons] at hi ⊢
    rw [Spec.wanted, wanted_no_table b l n (fun p hp => h p (List.mem_cons_of_mem _ hp)) fun e => hi (e.trans (List.suffix_append _ _).isInfix)]
    rfl
  | .caption c :: l, _, h, _ => by
    obtain ⟨_, _, _, _, n, hn⟩ := h _ List.mem_cons_self
    simp at hn
  | .table t :: l, n, _, hi => by
    refine absurd ?_ hi
    refine ⟨b!"<table" ++ t.attrs ++ b!">\n", b!"\n<tr>\n" ++ t.head.flatMap Spec.Cell.th ++ b!"</tr>\n</thead>\n" ++ Spec.bodyOf Spec.row t.body ++ b!"</table>\n" ++ l.flatMap Spec.Piece.html, ?_⟩
    simp [Spec.Piece.html, Spec.Table.html, Spec.Table.upTo]

/-! ### Aligned cells -/

theorem trimEnd {m b : Bytes} (hb : b.all isSpace = true) (hm : m.getLast?.all (fun c => !isSpace c) = true) : ((m ++ b).reverse.dropWhile isSpace).reverse = m := by
  rw [List.reverse_append, List.dropWhile_append_of_pos (by intro c hc; exact List.all_eq_true.mp hb c (List.mem_reverse.1 hc))]
  rcases List.eq_nil_or_concat m with rfl | ⟨m, x, rfl⟩
  · rfl
  · have : isSpace x = false := by simpa using hm
    simp [this]

theorem trimFront {a m : Bytes} (ha : a.all isSpace = true) {c : Byte} (hc : isSpace c = false) : (a ++ c :: m).dropWhile isSpace = c :: m ∧ (a ++ c :: m).takeWhile isSpace = a := by
  constructor
  · rw [List.dropWhile_append_of_pos (List.all_eq_true.mp ha), List.dropWhile_cons_of_neg (by simp [hc])]
  · rw [List.takeWhile_append_of_pos (List.all_eq_true.mp ha), List.takeWhile_cons_of_neg (by simp [hc]), List.append_nil]

theorem last_blank {a : Bytes} (ha : a.all isSpace = true) : a.getLast? ≠ some c!"\\" := by
  intro e
  have := List.all_eq_true.mp ha _ (List.mem_of_getLast? e)
  simp [isSpace] at this

theorem last_concat (l : Bytes) (x : Byte) : (l ++ [x]).getLast? = some x := by simp

theorem lead_true {a m : Bytes} (ha : a.all isSpace = true) (h1 : m.head? ≠ some c!":") :
    (decide (((a ++ c!":" :: m).dropWhile isSpace).head? = some c!":") && decide (((a ++ c!":" :: m).dropWhile isSpace)[1]? ≠ some c!":") &&
      decide (((a ++ c!":" :: m).takeWhile isSpace).getLast? ≠ some c!"\\")) = true := by
  have f := trimFront (m := m) ha (c := c!":") (by decide)
  have d1 : (c!":" :: m)[1]? ≠ some c!":" := by
    cases m with
    | nil => simp
    | cons x m => simpa using h1
  rw [f.1, f.2, decide_eq_true d1, decide_eq_true (last_blank ha)]
  rfl

theorem trail_true {m b : Bytes} (hb : b.all isSpace = true) (h1 : m.getLast? ≠ some c!"\\") :
    (decide ((((m ++ b!":" ++ b).reverse.dropWhile isSpace).reverse).getLast? = some c!":") &&
      decide ((((m ++ b!":" ++ b).reverse.dropWhile isSpace).reverse).dropLast.getLast? ≠ some c!"\\")) = true := by
  rw [trimEnd hb (by rw [last_concat]; rfl), last_concat, List.dropLast_concat, decide_eq_true h1]
  rfl

theorem alignment_center {a m b : Bytes} (ha : a.all isSpace = true) (hb : b.all isSpace = true) (h0 : m ≠ []) (h1 : m.head? ≠ some c!":")
    (h2 : m.getLast? ≠ some c!"\\") : alignment (a ++ b!":" ++ m ++ b!":" ++ b) = some (b!"text-align: center", m) := by
  have e1 : a ++ b!":" ++ m ++ b!":" ++ b = a ++ c!":" :: (m ++ b!":" ++ b) := by simp
  have e2 : a ++ c!":" :: (m ++ b!":" ++ b) = (a ++ c!":" :: m) ++ b!":" ++ b := by simp
  have l1 := lead_true (m := m ++ b!":" ++ b) ha (by cases m with | nil => exact absurd rfl h0 | cons x m => simpa using h1)
  have l2 := trail_true (m := a ++ c!":" :: m) hb (by
    rcases List.eq_nil_or_concat m with rfl | ⟨m, x, rfl⟩
    · exact absurd rfl h0
    · rw [List.concat_eq_append] at *
      rw [show a ++ c!":" :: (m ++ [x]) = (a ++ c!":" :: m) ++ [x] by simp, last_concat]
      rwa [last_concat] at h2)
  rw [← e2] at l2
  rw [e1]
  simp only [alignment, l1, l2]
  rw [(trimFront (m := m ++ b!":" ++ b) ha (c := c!":") (by decide)).1]
  have g : (((c!":" :: (m ++ b!":" ++ b)).drop 1).reverse.dropWhile isSpace).reverse = m ++ b!":" := trimEnd (m := m ++ b!":") hb (by rw [last_concat]; rfl)
  simp only [Bool.not_true, Bool.and_self, Bool.false_eq_true, if_false, if_true, g, last_concat, List.dropLast_concat, decide_true]

theorem alignment_left {a m : Bytes} (ha : a.all isSpace = true) (h1 : m.head? ≠ some c!":") (h0 : m.all isSpace = false)
    (h2 : (m.reverse.dropWhile isSpace).head? ≠ some c!":") : alignment (a ++ b!":" ++ m) = some (b!"text-align: left", m) := by
  have e1 : a ++ b!":" ++ m = a ++ c!":" :: m := by simp
  have l1 := lead_true (m := m) ha h1
  have l2 : decide ((((a ++ c!":" :: m).reverse.dropWhile isSpace).reverse).getLast? = some c!":") = false := by
    rw [List.getLast?_reverse, show (a ++ c!":" :: m).reverse = m.reverse ++ (a ++ b!":").reverse by simp]
    have hne : m.reverse.dropWhile isSpace ≠ [] := by
      intro e
      have : m.reverse.all isSpace = true := by rw [← IalTree.dropWhile_none e]; exact List.all_takeWhile
      rw [List.all_reverse] at this
      rw [h0] at this; cases this
    rw [(IalTree.takeWhile_app (t := (a ++ b!":").reverse)).2 hne]
    cases hx : m.reverse.dropWhile isSpace with
    | nil => exact absurd hx hne
    | cons y l => rw [hx] at h2; simpa using h2
  rw [e1]
  simp only [alignment, l1, l2]
  rw [(trimFront (m := m) ha (c := c!":") (by decide)).1]
  rfl

theorem alignment_right {m b : Bytes} (hb : b.all isSpace = true) (h1 : (m.dropWhile isSpace).head? ≠ some c!":") (h0 : m.all isSpace = false)
    (h2 : m.getLast? ≠ some c!"\\") : alignment (m ++ b!":" ++ b) = some (b!"text-align: right", m) := by
  have l2 := trail_true (m := m) hb h2
  have l1 : decide (((m ++ b!":" ++ b).dropWhile isSpace).head? = some c!":") = false := by
    rw [List.append_assoc]
    have hne : m.dropWhile isSpace ≠ [] := by
      intro e
      have : m.all isSpace = true := by rw [← IalTree.dropWhile_none e]; exact List.all_takeWhile
      rw [h0] at this; cases this
    rw [(IalTree.takeWhile_app (t := b!":" ++ b)).2 hne]
    cases hx : m.dropWhile isSpace with
    | nil => exact absurd hx hne
    | cons y l => rw [hx] at h1; simpa using h1
  have g := trimEnd (m := m ++ b!":") hb (by rw [last_concat]; rfl)
  simp only [alignment, l1, l2]
  simp only [Bool.false_and, Bool.not_false, Bool.not_true, Bool.and_false, Bool.false_eq_true, if_false, g, last_concat, decide_true, Bool.and_true, if_true, List.dropLast_concat]

theorem colon_of {x : Bytes} {y : Bytes × Bytes} (h : alignment x = some y) : hasColon x = true := by
  unfold alignment at h
  unfold hasColon
  rw [Bool.or_eq_true]
  by_cases h1 : (x.dropWhile isSpace).head? = some c!":"
  · exact .inl (by simpa using h1)
  · by_cases h2 : ((x.reverse.dropWhile isSpace).reverse).getLast? = some c!":"
    · exact .inr (by simpa using h2)
    · simp only [decide_eq_false h1, decide_eq_false h2, Bool.false_and, Bool.not_false, Bool.and_self, if_true] at h
      cases h

theorem alignCell_aligned {st : St} {x style m rest : Bytes} (h : alignment x = some (style, m)) (h0 : x ≠ []) (h1 : x.length < 500) (h2 : ¬ b!"</td>" <:+: x)
    (hr : st.out.length + (b!"<td style=\"" ++ style ++ b!"\">" ++ m ++ b!"</td>").length ≤ st.cap) :
    alignCell st (b!"<td>" ++ x ++ b!"</td>" ++ rest) =
      .val (.inl (.done { st with out := st.out ++ (b!"<td style=\"" ++ style ++ b!"\">" ++ m ++ b!"</td>"), col := st.col + 1 } rest)) := by
  have e : b!"<td>" ++ x ++ b!"</td>" ++ rest = c!"<" :: c!"t" :: c!"d" :: c!">" :: (x ++ c!"<" :: b!"/td>" ++ rest) := by simp
  have hf := (Embed.find_eq (d := c!"<") (w := b!"/td>") (by decide) x rest).2 h2
  have ht : tag (c!"<" :: c!"t" :: c!"d" :: c!">" :: (x ++ c!"<" :: b!"/td>" ++ rest)) = b!"<td" := rfl
  have he : tagEnd (c!"<" :: c!"t" :: c!"d" :: c!">" :: (x ++ c!"<" :: b!"/td>" ++ rest)) = c!">" :: (x ++ c!"<" :: b!"/td>" ++ rest) := rfl
  have hc : closing (c!"<" :: c!"t" :: c!"d" :: c!">" :: (x ++ c!"<" :: b!"/td>" ++ rest)) = c!"<" :: b!"/td>" := rfl
  have hs : ∀ u, styled b!"<td" u = (b!"<td", true) := fun u => rfl
  rw [e]
  simp only [alignCell, ht, he, hc, hf, h1, h0, colon_of h, h, hs, if_true, if_false, List.length_cons, List.length_nil, Nat.reduceAdd, Nat.reduceLeDiff]
  rw [St.slip, if_pos (by simp only [List.length_append, List.length_cons, List.length_nil] at hr ⊢; omega)]
  simp only [C.val_bind]
  congr 4

end Verif.TableHtml
