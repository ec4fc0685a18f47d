import Verif.Layout.Main

/-!
# Changed layout: samples
-/

namespace Ludtwig.Layout

open Lexer

/-- A test for `Relayout`. -/
def relayoutGo : Nat → List Token → List Token → Bool
  | 0, _, _ => false
  | n + 1, ts, ts' =>
    let g := ts.takeWhile (fun t => t.kind.isTrivia)
    let g' := ts'.takeWhile (fun t => t.kind.isTrivia)
    (g.isEmpty == g'.isEmpty) && g.all (fun t => t.text.all blankChar) &&
      g'.all (fun t => t.text.all blankChar) &&
    match dropTrivia ts, dropTrivia ts' with
    | [], [] => true
    | t :: q, t' :: q' => t.kind == t'.kind && t.text == t'.text &&
        (t.kind != T!"<" || q.head?.map (·.kind) == q'.head?.map (·.kind)) && relayoutGo n q q'
    | _, _ => false

theorem relayoutGo_sound : ∀ {n ts ts'}, relayoutGo n ts ts' = true → Relayout ts ts' := by
  intro n
  induction n with
  | zero => intro ts ts' h; cases h
  | succ n ih =>
    intro ts ts' h
    simp only [relayoutGo, Bool.and_eq_true] at h
    obtain ⟨⟨⟨h1, h2⟩, h3⟩, h4⟩ := h
    have key : Relayout (dropTrivia ts) (dropTrivia ts') := by
      split at h4
      · rename_i e e'
        rw [e, e']; exact .nil
      · rename_i t q t' q' e e'
        simp only [Bool.and_eq_true, beq_iff_eq, Bool.or_eq_true, bne_iff_ne] at h4
        obtain ⟨⟨⟨k1, k2⟩, k3⟩, k4⟩ := h4
        rw [e, e']
        exact .token (dropTrivia_head e) ⟨k1, k2⟩ (fun hk => k3.resolve_left (fun hn => hn hk)) (ih k4)
      · cases h4
    have e : ∀ l : List Token, l = l.takeWhile (fun t => t.kind.isTrivia) ++ dropTrivia l :=
      fun l => (List.takeWhile_append_dropWhile).symm
    have tr : ∀ l : List Token, ∀ t ∈ l.takeWhile (fun t => t.kind.isTrivia), t.kind.isTrivia = true :=
      fun l => List.all_eq_true.1 (List.all_takeWhile (p := fun t : Token => t.kind.isTrivia))
    have hd : ∀ l : List Token, ∀ t ∈ (dropTrivia l).head?, t.kind.isTrivia = false := by
      intro l t ht
      cases hr : dropTrivia l with
      | nil => rw [hr] at ht; cases ht
      | cons u q =>
        rw [hr] at ht
        cases ht
        exact dropTrivia_head hr
    rw [e ts, e ts']
    by_cases hg : ts.takeWhile (fun t => t.kind.isTrivia) = []
    · have hg' : ts'.takeWhile (fun t => t.kind.isTrivia) = [] := by
        rw [hg] at h1
        simpa using h1
      rw [hg, hg']
      exact key
    · have hg' : ts'.takeWhile (fun t => t.kind.isTrivia) ≠ [] := by
        intro hn
        rw [hn] at h1
        simp at h1
        exact hg (by simpa using h1)
      exact .gap ⟨hg, fun t ht => ⟨tr _ t ht, List.all_eq_true.1 h2 t ht⟩⟩
        ⟨hg', fun t ht => ⟨tr _ t ht, List.all_eq_true.1 h3 t ht⟩⟩ (hd _) (hd _) key

/-- A file with another indentation and other line breaks, with a syntax error in it. -/
example :
    let s := "<a b=\"c d\">\n  {% if x %}\n  y < z{% endif %}\n</b>".toList
    let s' := "<a\n\t\tb=\"c\n\nd\">\r\n{% if\n x %} y\n< z{%\n\nendif %} </b>".toList
    Relayout (lex (fun _ => 1) s) (lex (fun _ => 1) s') ∧
      ((lex (fun _ => 1) s).map (·.text) ≠ (lex (fun _ => 1) s').map (·.text)) ∧
      Returns (parse (fun _ => 1) s) (fun p => p.errors.length == 1) = true :=
  ⟨relayoutGo_sound (n := 100) (by decide +kernel), by decide +kernel, by decide +kernel⟩

/-- Whitespace where there was none can add syntax errors: a list item that is not there is looked
for again. -/
example : Returns (parse (fun _ => 1) "{{ [%}".toList) (fun p => p.errors.length == 3) = true ∧
    Returns (parse (fun _ => 1) "{{ [ %}".toList) (fun p => p.errors.length == 4) = true := by
  decide +kernel

/-- Behind `<` a line break starts an element, and whitespace does not. -/
example : Returns (parse (fun _ => 1) "< a".toList) (fun p => p.errors.length == 0) = true ∧
    Returns (parse (fun _ => 1) "<\na".toList) (fun p => p.errors.length == 0) = false := by
  decide +kernel

end Ludtwig.Layout
