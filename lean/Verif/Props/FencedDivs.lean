import Verif.Proof.FencedDivs

namespace Verif.FencedDivs

open Spec

/-- **C131**, for pages less than twice as long as the text: every fenced div of a document becomes the element it
describes, with its id, classes and attributes, around what it holds; divs may be nested, and those that are not closed
are closed at the end; other lines are kept.  (The full statement is for all documents; it fails, see below.) -/
theorem C131_partial (d : Doc) (h : d.Ok) (h0 : 0 ∉ d.source) (hl : d.page.length < 2 * d.source.length) :
    process d.source = .val d.page := by
  have hr := run_doc d h
  have := process_ok d.source (docToks d) hr (by rw [page_doc]; exact hl) (loop_clean _ _ _ _ (by simp) h0 hr)
  rw [this, page_doc]

/-- **C131**, for every text: if the program writes only to its block, the result is the page of the tags and lines of
the text, with the tags properly nested, or that page cut off in front of the end of a tag. -/
theorem C131_nested (text s : Bytes) (h0 : 0 ∉ text) (h : process text = .val s) :
    ∃ ts, Reads [] text ts ∧ Nested [] ts ∧ (s = pageOf ts ∨ CutOff s (pageOf ts)) := by
  obtain ⟨ts, h1, h2⟩ := process_out text s h0 h
  exact ⟨ts, loop_reads _ _ _ _ (by omega) h1, loop_nested _ _ _ _ h1, h2⟩

/-- The description of a div is what is between the colons. -/
theorem C131_fences (line info : Bytes) : (opening line = some info ↔ Opens line info) ∧ (closing line = true ↔ Closes line) :=
  ⟨opening_iff line info, closing_iff line⟩

/-- A page that exactly fills the block in front of a closing tag is cut off there: the text behind the div is lost. -/
theorem C131_cut_fails : process b!"::: note\nxxx\n:::\nend\n" = .val b!"<div class=\"note\" markdown=\"1\">\nxxx\n</div" := by
  decide +kernel

/-- If the page fills the block the NUL is written behind it. -/
theorem C131_end_fails : process b!"::: note\n0123456789a\n:::\n" = .ub := by decide +kernel

/-- The wrapper of a custom element is longer than what is made sure to be left. -/
theorem C131_element_fails : process b!"0123456789abcdefghi\n::: >x\nend\n" = .ub := by decide +kernel

/-- A carriage return and a newline are counted as one byte. -/
theorem C131_return_fails : process b!"::: note\r\n\r\n:::\r\nend\r\n" = .ub := by decide +kernel

/-- The empty text. -/
theorem C131_empty_fails : process [] = .ub := by decide +kernel

/-- Braces that are not closed. -/
theorem C131_brace_fails : process b!"::: {foo\ntext\n:::\n" = .ub := by decide +kernel

/-- Fences in code are taken for fences. -/
theorem C131_code_fails : process b!"```\n::: a\n:::\n```\nSome more text, at the end.\n" =
    .val b!"```\n<div class=\"a\" markdown=\"1\">\n</div>```\nSome more text, at the end.\n" := by decide +kernel

/-- The end of the line of a closing fence is lost: the next line goes on behind the tag. -/
theorem C131_line_fails : process b!"::: a\nSome text in the div.\n:::\n# Title\n" =
    .val b!"<div class=\"a\" markdown=\"1\">\nSome text in the div.\n</div># Title\n" := by decide +kernel

/-- Values are written as they are, quotes too. -/
theorem C131_quote_fails : process b!"::: {k='a\"b'}\nSome text in the div.\n:::\n" =
    .val b!"<div k=\"a\"b\" markdown=\"1\">\nSome text in the div.\n</div>" := by decide +kernel

/-- A class with a dot is a class with a dot. -/
theorem C131_dot_fails : process b!"::: .note\nSome text in the div.\n:::\n" =
    .val b!"<div class=\".note\" markdown=\"1\">\nSome text in the div.\n</div>" := by decide +kernel

/-- An id of 250 bytes has no quote at its end, and the attributes behind it are lost. -/
theorem C131_id_fails (i : Bytes) (h : i.length = 250) (cs : List Bytes) (as : List (Bytes × Bytes)) :
    html ⟨some i, cs, as⟩ = b!" id=\"" ++ i := by simp [html, h]

example : (html ⟨some (List.replicate 250 c!"x"), [b!"a"], []⟩).getLast? = some c!"x" := by
  decide +kernel

/-- A document that meets the hypotheses of `C131_partial`. -/
def sample : Doc where
  parts := [.line b!"Some text in front, as long as the tags." b!"\n",
    .div (.attrs [.id b!"x", .cls b!"note", .quoted c!"\"" b!"k" b!"a b"]) b!"::: {#x .note k=\"a b\"} :::" b!"\n"
      [.line b!"Inside." b!"\r\n", .div (.element b!"aside") b!"  ::::>aside" b!"\n" [] b!":::" b!"\n"] b!":::::  " b!"\n"]
  opened := [(.word b!"end", b!"::: end", b!"\n", [.line b!"Text in a div that is never closed." b!"\n"])]
  last := b!"The last line, without its end."

theorem plain_of {l : Bytes} (h1 : opening l = none) (h2 : closing l = false) : Plain l :=
  ⟨fun info h => by rw [(opening_iff _ _).2 h] at h1; simp at h1, fun h => by rw [(closing_iff _).2 h] at h2; simp at h2⟩

example : sample.Ok ∧ 0 ∉ sample.source ∧ sample.page.length < 2 * sample.source.length := by
  refine ⟨⟨?_, ?_, by decide, plain_of (by decide) (by decide)⟩, by decide +kernel, by decide +kernel⟩
  · simp only [sample, Part.AllOk, Part.Ok, and_true, Info.Ok]
    refine ⟨⟨by decide, plain_of (by decide) (by decide), Or.inl rfl⟩, ⟨?_, by decide +kernel⟩, (opening_iff _ _).1 (by decide +kernel), by decide, Or.inl rfl,
      ⟨⟨by decide, plain_of (by decide) (by decide), Or.inr rfl⟩, by decide, (opening_iff _ _).1 (by decide +kernel), by decide, Or.inl rfl, trivial,
        (closing_iff _).1 (by decide), by decide, Or.inl rfl⟩, (closing_iff _).1 (by decide), by decide, Or.inl rfl⟩
    intro a ha
    simp only [List.mem_cons, List.not_mem_nil, or_false] at ha
    rcases ha with rfl | rfl | rfl <;> simp only [Attr.Ok, Word] <;> decide
  · intro o ho
    simp only [sample, List.mem_cons, List.not_mem_nil, or_false] at ho
    subst ho
    simp only [Part.AllOk, Part.Ok, and_true, Info.Ok, Word]
    exact ⟨by decide, (opening_iff _ _).1 (by decide +kernel), by decide, Or.inl rfl, by decide, plain_of (by decide) (by decide), Or.inl rfl⟩

example : sample.page = b!"Some text in front, as long as the tags.\n<div id=\"x\" class=\"note\" k=\"a b\" markdown=\"1\">\nInside.\r\n<aside markdown=\"1\">\n</aside></div><div class=\"end\" markdown=\"1\">\nText in a div that is never closed.\nThe last line, without its end.</div>" := by
  decide +kernel

/-- **C132**, for pages whose wrapped elements have names of up to 33 bytes and hold no other wrapped element: each is
written with its own name again, with its attributes and what it holds; everything else is kept.  (The full statement is
for all wrapped elements; it fails, see below.) -/
theorem C132_partial (ws : List Wrapped) (hw : ∀ w ∈ ws, w.Ok) (r : Bytes) (hr : ¬ wrapPrefix <:+: r)
    (h0 : 0 ∉ ws.flatMap Wrapped.source ++ r) :
    post (ws.flatMap Wrapped.source ++ r) = .val (ws.flatMap Wrapped.html ++ r) := post_ok ws hw r hr h0

/-- A page without wrapped elements is kept. -/
theorem C132_same (r : Bytes) (hr : ¬ wrapPrefix <:+: r) (h0 : 0 ∉ r) : post r = .val r := by
  have := post_ok [] (by simp) r hr (by simpa using h0)
  simpa using this

/-- A wrapped element in another one is left as it is. -/
theorem C132_inner_fails :
    post b!"<div data-apex-fenced-element=\"a\"><div data-apex-fenced-element=\"b\">x</div></div>" =
      .val b!"<a><div data-apex-fenced-element=\"b\">x</div></a>" := by decide +kernel

/-- If a name is empty, the text in front of it is written twice, and nothing behind it is looked at. -/
theorem C132_twice_fails :
    post b!"text <div data-apex-fenced-element=\"\">x</div> <div data-apex-fenced-element=\"a\">y</div>" =
      .val b!"text text <div data-apex-fenced-element=\"\">x</div> <div data-apex-fenced-element=\"a\">y</div>" := by decide +kernel

/-- If the closing tag is missing, the opening tag is written with the element's name anyway. -/
theorem C132_open_fails : post b!"<div data-apex-fenced-element=\"a\">x" = .val b!"<a>x" := by decide +kernel

/-- Thirteen elements with long names: the check in front of an opening tag does not count the name, and the tag is
written behind the block. -/
theorem C132_name_fails :
    post (List.replicate 13 (wrapPrefix ++ List.replicate 127 c!"x" ++ b!"\"></div>")).flatten = .ub := by decide +kernel

/-- A `div` in a comment counts. -/
theorem C132_comment_fails :
    post b!"<div data-apex-fenced-element=\"a\"><!-- <div> -->x</div>" = .val b!"<a><!-- <div> -->x</div>" := by decide +kernel

example : Wrapped.Ok ⟨b!"<p>Text</p>\n", b!"my-card", b!"class=\"c\" markdown=\"1\"", [.char 10, .tag b!"p", .char c!"x", .tag b!"/p", .div b!" id=\"i\"" [.char c!"y"]]⟩ := by
  refine ⟨by decide, by decide, by decide, by decide, by decide, by decide, ?_⟩
  simp only [Node.AllOk, Node.Ok]
  refine ⟨by decide, ?_, by decide, ?_, ⟨by decide, by decide, by decide, trivial⟩, trivial⟩
  · exact ⟨by decide, by decide, by decide, by intro c _ h; exact absurd h.length_le (by simp)⟩
  · exact ⟨by decide, by decide, by decide, by intro c _ h; exact absurd h.length_le (by simp)⟩

end Verif.FencedDivs
