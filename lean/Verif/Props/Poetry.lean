/- Properties of the class for code without a language. -/
import Verif.Proof.Poetry

namespace Verif.Poetry
open Spec

/-- C148: exactly what happens, for every page: a code block gets the class if no class with a language behind it follows, in its tag or
anywhere behind it; nothing else is changed. -/
theorem C148_exact (html : Bytes) : ∃ p : Page, p.Ok ∧ p.html = html ∧ add html = .val (p.text ++ marked (fun s => ¬ Named s) p.blocks p.cut) := by
  obtain ⟨p, hp, e⟩ := exists_page (html.length + 1) html (by omega)
  obtain ⟨k, h1, h2⟩ := loop_ok p.blocks p.cut p.text ⟨html.length * 2 + 1, []⟩ (html.length + 1) hp.1 hp.2.1 hp.2.2 (by simp) (by
    show p.html.length < _; rw [e]; omega)
  refine ⟨p, hp, e, ?_⟩
  have e' : p.text ++ source p.blocks p.cut = html := e
  rw [e'] at h1
  rw [add, h1]
  simp only [C.bind, List.nil_append] at h2 ⊢
  rw [if_pos h2]

theorem C148_of_page {p : Page} (hp : p.Ok) : add p.html = .val (p.text ++ marked (fun s => ¬ Named s) p.blocks p.cut) := by
  obtain ⟨k, h1, h2⟩ := loop_ok p.blocks p.cut p.text ⟨p.html.length * 2 + 1, []⟩ (p.html.length + 1) hp.1 hp.2.1 hp.2.2 (by simp) (by
    show p.html.length < _; omega)
  have e' : p.text ++ source p.blocks p.cut = p.html := rfl
  rw [e'] at h1
  rw [add, h1]
  simp only [C.bind, List.nil_append] at h2 ⊢
  rw [if_pos h2]

/-- C148, the part that holds: in a page without languages every code block gets the class.  (The full claim is about each block, whatever
is behind it.) -/
theorem C148_plain_partial {p : Page} (hp : p.Ok) (h : ¬ b!"language-" <:+: p.html) : add p.html = .val (p.text ++ marked (fun _ => True) p.blocks p.cut) := by
  rw [C148_of_page hp]
  have key : ∀ bs : List (Bytes × Bytes), (∃ t, p.html = t ++ source bs p.cut) → marked (fun s => ¬ Named s) bs p.cut = marked (fun _ => True) bs p.cut := by
    intro bs
    induction bs with
    | nil => intro _; rfl
    | cons x bs ih =>
      obtain ⟨a, t'⟩ := x
      rintro ⟨t, e⟩
      rw [marked, marked, ih ⟨t ++ b!"<pre><code" ++ a ++ b!">" ++ t', by rw [e]; simp [source]⟩, if_pos, if_pos trivial]
      rintro ⟨u, v, w, e'⟩
      refine h ⟨t ++ b!"<pre><code" ++ u ++ b!"class=" ++ v, w, ?_⟩
      have : source ((a, t') :: bs) p.cut = b!"<pre><code" ++ (a ++ b!">" ++ t' ++ source bs p.cut) := by simp [source]
      rw [e, this, e']; simp
  rw [key p.blocks ⟨p.text, rfl⟩]

/-- C148: code blocks with a language are never changed. -/
theorem C148_languages_partial {p : Page} (hp : p.Ok) (h : ∀ b ∈ p.blocks, Named b.1) : add p.html = .val p.html := by
  rw [C148_of_page hp]
  have key : ∀ bs : List (Bytes × Bytes), (∀ b ∈ bs, Named b.1) → marked (fun s => ¬ Named s) bs p.cut = source bs p.cut := by
    intro bs
    induction bs with
    | nil => intro _; rfl
    | cons x bs ih =>
      obtain ⟨a, t'⟩ := x
      intro hb
      rw [marked, ih (fun y hy => hb y (by simp [hy])), if_neg, source]
      simp only [Classical.not_not]
      obtain ⟨u, v, w, e⟩ := hb (a, t') (by simp)
      simp only at e
      exact ⟨u, v, w ++ b!">" ++ t' ++ source bs p.cut, by rw [e]; simp⟩
  rw [key p.blocks h]
  rfl

/-- Pages that meet the hypotheses. -/
theorem sample : (⟨b!"<p>x</p>", [(b!"", b!"a</code></pre>"), (b!" id=\"i\"", b!"b</code></pre>")], none⟩ : Page).Ok ∧
    add b!"<p>x</p><pre><code>a</code></pre><pre><code id=\"i\">b</code></pre>" =
      .val b!"<p>x</p><pre><code class=\"poetry\">a</code></pre><pre><code id=\"i\" class=\"poetry\">b</code></pre>" := by
  refine ⟨⟨?_, ?_, by simp⟩, by decide +kernel⟩
  · rw [← Embed.find_none (by decide)]; decide
  · intro x hx
    simp only [List.mem_cons, List.not_mem_nil, or_false] at hx
    rcases hx with rfl | rfl
    · exact ⟨by decide, by rw [← Embed.find_none (by decide)]; decide⟩
    · exact ⟨by decide, by rw [← Embed.find_none (by decide)]; decide⟩

/-- C148 is false of a block in front of one with a language: it does not get the class. -/
theorem C148_later_refuted : add b!"<pre><code>a</code></pre>\n<pre><code class=\"language-c\">b</code></pre>" =
    .val b!"<pre><code>a</code></pre>\n<pre><code class=\"language-c\">b</code></pre>" := by decide +kernel

/-- C148 is false of a block with another class: it gets a second attribute, which browsers ignore. -/
theorem C148_class_refuted : add b!"<pre><code class=\"x\">a</code></pre>" = .val b!"<pre><code class=\"x\" class=\"poetry\">a</code></pre>" := by decide +kernel

end Verif.Poetry
