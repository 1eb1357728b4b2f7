/- C273: the line of progress. -/
import Verif.Proof.Progress

namespace Verif.Progress

/-- C273: it is always clear whether progress is wanted. -/
theorem C273_clear (env : Option Bytes) (tty : Bool) (args : List Bytes) : ∃ b, Wanted env tty args b ∧ ∀ c, Wanted env tty args c → c = b := by
  obtain ⟨b, hb⟩ := wanted_total env tty args
  exact ⟨b, hb, fun c hc => (wanted_options hc).symm.trans (wanted_options hb)⟩

/-- C273: without the wish nothing is written. -/
theorem C273_off (env : Option Bytes) (tty : Bool) (args : List Bytes) (es : List (Option Bytes × Nat)) (t1 t2 : Nat) (h : Wanted env tty args false) :
    run env tty args es t1 t2 = [] := by
  rw [run, wanted_options h]
  rfl

/-- C273: before a second is over nothing is written. -/
theorem C273_soon (env : Option Bytes) (tty : Bool) (args : List Bytes) (es : List (Option Bytes × Nat)) (t1 t2 : Nat)
    (ht : ∀ e ∈ es, e.2 < 1000) (h1 : t1 < 1000) (h2 : t2 < 1000) : run env tty args es t1 t2 = [] := by
  rw [run]
  generalize options args (fromEnv env tty) = on
  cases on
  · rfl
  · obtain ⟨ha, hb⟩ := reports_soon es ⟨true, false, none, []⟩ ht rfl
    unfold convert
    simp only [if_true]
    rw [delayed_soon _ _ h1, update_soon _ _ h2, clear, hb, Bool.and_false, if_neg (by decide), ha]

/-- C273: if it is wanted and more than a second is over at the end, then the last message is the one about the last stage, and behind it the line is made blank. -/
theorem C273_shown (env : Option Bytes) (tty : Bool) (args : List Bytes) (es : List (Option Bytes × Nat)) (t1 t2 : Nat) (l : Bytes)
    (h : Wanted env tty args true) (hl : (es.filterMap (·.1)).getLast? = some l) (h2 : 1000 ≤ t2) :
    ∃ e, run env tty args es t1 t2 = e ++ b!"\rProcessing: " ++ l ++ b!"..." ++ b!"\r" ++ List.replicate 80 c!" " ++ b!"\r" := by
  rw [run, wanted_options h]
  unfold convert
  simp only [if_true]
  have hlast := (reports_last es ⟨true, false, none, []⟩ rfl)
  rw [lastStage_eq, hl, Option.some_or] at hlast
  have hk := delayed_keeps (reports es ⟨true, false, none, []⟩) t1
  rw [hlast.1, hlast.2] at hk
  generalize delayed (reports es ⟨true, false, none, []⟩) t1 = s at hk
  refine ⟨s.err, ?_⟩
  have hu : update s t2 = { s with shown := true, err := s.err ++ text l } := by
    unfold update
    rw [hk.1]
    simp only
    rw [hk.2, if_neg (by decide), if_pos h2]
  rw [hu, clear]
  simp only [hk.2, Bool.and_self, if_true, text, List.append_assoc]

/-- C273: at the end the line is blank again, if the names of the stages fit. -/
theorem C273_blank (env : Option Bytes) (tty : Bool) (args : List Bytes) (es : List (Option Bytes × Nat)) (t1 t2 : Nat)
    (hf : ∀ e ∈ es, ∀ x ∈ e.1, Fits x) : (screen (run env tty args es t1 t2)).Blank := by
  rw [run]
  refine clear_blank (ok_convert _ es t1 t2 hf) ?_
  intro ho
  cases hon : options args (fromEnv env tty) with
  | false => rfl
  | true => rw [hon, convert_on] at ho; cases ho

/-- C273: those of apex do. -/
theorem C273_stages : ∀ x ∈ apexStages, Fits x := by
  intro x hx
  simp only [apexStages, List.mem_cons, List.not_mem_nil, or_false] at hx
  rcases hx with rfl | rfl | rfl | rfl | rfl <;> exact ⟨by decide, by decide⟩

/-- C273, refuted: the line shows the stage of now and nothing else.  Behind the message of any stage the end of that of a longer one before it stays. -/
theorem C273_stale_fails (a b : Bytes) (t u : Nat) (ha : c!"\r" ∉ a) (hb : c!"\r" ∉ b) (hl : b.length < a.length) (ht : 1000 ≤ t) (hu : 1000 ≤ u) :
    ∃ rest, rest ≠ [] ∧ (screen (reports [(some a, t), (some b, u)] ⟨true, false, none, []⟩).err).shows = b!"Processing: " ++ b ++ b!"..." ++ rest := by
  have hno : ∀ x : Bytes, c!"\r" ∉ x → c!"\r" ∉ b!"Processing: " ++ x ++ b!"..." := by
    intro x hx hm
    rw [List.mem_append, List.mem_append] at hm
    rcases hm with (hm | hm) | hm
    · exact absurd hm (by decide)
    · exact hx hm
    · exact absurd hm (by decide)
  have he : (reports [(some a, t), (some b, u)] ⟨true, false, none, []⟩).err = text a ++ text b := by
    rw [reports, reports, reports, report_late _ a t rfl ht, report_late _ b u rfl hu]
    rfl
  rw [he, screen, List.foldl_append, show text a = c!"\r" :: (b!"Processing: " ++ a ++ b!"...") from rfl, show text b = c!"\r" :: (b!"Processing: " ++ b ++ b!"...") from rfl,
    put_line _ _ (hno a ha), put_line _ _ (hno b hb)]
  refine ⟨_, ?_, rfl⟩
  intro h
  have := congrArg List.length h
  simp only [List.drop_nil, List.append_nil, List.length_drop, List.length_append, List.length_nil] at this
  omega

/-- C273: two of the stages of apex. -/
theorem C273_stale_case : (screen (reports [(some b!"Processing relaxed tables", 1200), (some b!"Processing wiki links", 1500)] ⟨true, false, none, []⟩).err).shows =
    b!"Processing: Processing wiki links...s..." := by decide +kernel

/-- C273, refuted: a message that does not fit is wiped. -/
theorem C273_long_fails : ¬ (screen (run none true [] [(some (List.replicate 70 c!"x"), 1500)] 1500 1500)).Blank := by
  intro h
  exact absurd (h.2 c!"x" (by decide +kernel)) (by decide)

/-- C273: a case. -/
theorem C273_case : Wanted none true [b!"--no-progress", b!"a.md", b!"--progress"] true ∧
    run none true [] [(some b!"Processing citations", 300)] 1500 1500 =
      b!"\rProcessing: Processing citations...\rProcessing: Processing citations...\r" ++ List.replicate 80 c!" " ++ b!"\r" :=
  ⟨.yes [b!"--no-progress", b!"a.md"] [] rfl (by simp), by decide +kernel⟩

end Verif.Progress
