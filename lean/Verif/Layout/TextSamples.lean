import Verif.Layout.Lex
import Verif.Layout.Samples

/-!
# Changed layout of a text: samples
-/

namespace Ludtwig.Layout

open Lexer

/-- A test for `Blanks`. -/
def blanksGo : Text → Bool
  | [] => true
  | '\r' :: '\n' :: s => blanksGo s
  | c :: s => (c == ' ' || c == '\t' || c == '\n') && blanksGo s

theorem blanksGo_sound : ∀ {s : Text}, blanksGo s = true → Blanks s := by
  intro s
  induction s using blanksGo.induct with
  | case1 => exact fun _ => ⟨[], rfl, by simp⟩
  | case2 s ih =>
    intro h
    obtain ⟨l, rfl, hl⟩ := ih (by simpa [blanksGo] using h)
    exact ⟨['\r', '\n'] :: l, rfl, by simpa using hl⟩
  | case3 c s hn ih =>
    intro h
    rw [blanksGo.eq_3 _ _ hn] at h
    simp only [Bool.and_eq_true, Bool.or_eq_true, beq_iff_eq] at h
    obtain ⟨l, rfl, hl⟩ := ih h.2
    refine ⟨[c] :: l, rfl, ?_⟩
    intro x hx
    rcases List.mem_cons.1 hx with rfl | hx
    · rcases h.1 with (rfl | rfl) | rfl <;> simp
    · exact hl x hx

/-- A text that starts with another character than whitespace is solid. -/
theorem solid_of_head {c : Char} {s : Text} (h : blankChar c = false) : Solid (c :: s) := by
  rintro g r e ⟨l, rfl, hl⟩
  cases l with
  | nil => rfl
  | cons x l =>
    exfalso
    rcases hl x (List.mem_cons_self ..) with rfl | rfl | rfl | rfl <;>
      · simp only [List.flatten_cons, List.cons_append, List.nil_append, List.cons.injEq] at e
        rw [e.1] at h
        revert h; decide

instance (u g : Text) : Decidable (Stops u g) := by unfold Stops; infer_instance

theorem solid_nil : Solid [] := by
  intro g r e _
  cases g with
  | nil => rfl
  | cons _ _ => cases e

/-- The first way of ending an error span that one can think of: one character. -/
example : ErrLenOk (fun _ => 1) ∧ ErrLineLocal (fun _ => 1) := by
  refine ⟨fun s hs => ⟨Nat.le_refl _, ?_⟩, fun u c r hu _ _ _ => ⟨?_, fun _ => rfl⟩⟩
  · cases s with
    | nil => exact absurd rfl hs
    | cons _ _ => simp
  · cases u with
    | nil => exact absurd rfl hu
    | cons _ _ => simp

/-- Another one: the whole word that is not understood. -/
example : ErrLenOk (fun s => max 1 (s.takeWhile (fun c => !blankChar c)).length) ∧
    ErrLineLocal (fun s => max 1 (s.takeWhile (fun c => !blankChar c)).length) := by
  refine ⟨fun s hs => ⟨Nat.le_max_left .., ?_⟩, fun u c r hu _ _ hc => ?_⟩
  · have h1 : (s.takeWhile (fun c => !blankChar c)).length ≤ s.length :=
      (List.takeWhile_sublist _).length_le
    have h2 : s.length ≠ 0 := fun h => hs (List.length_eq_zero_iff.1 h)
    dsimp only
    omega
  · have key : ∀ (u r : Text), (u ++ c :: r).takeWhile (fun c => !blankChar c) =
        u.takeWhile (fun c => !blankChar c) := by
      intro u r
      induction u with
      | nil => simp [hc]
      | cons d u ih =>
        simp only [List.cons_append, List.takeWhile_cons]
        rw [ih]
    have h1 : (u.takeWhile (fun c => !blankChar c)).length ≤ u.length :=
      (List.takeWhile_sublist _).length_le
    have h2 : u.length ≠ 0 := fun h => hu (List.length_eq_zero_iff.1 h)
    refine ⟨?_, fun r' => ?_⟩
    · dsimp only
      rw [key]; omega
    · dsimp only
      rw [key, key]

/-- A file with another indentation, and a lone CR in it. -/
example : Reindented "<div>\n{% if a %}\n{{ b \n }}\n{% endif %}\r \n</div>".toList
    "\n  <div>\n    {% if a %}\n\t\t{{ b \n\r\n}}\n\n\n    {% endif %}\r \n</div>".toList :=
  ⟨[], "\n  ".toList, "<div>\n{% if a %}\n{{ b \n }}\n{% endif %}\r \n</div>".toList,
    "<div>\n    {% if a %}\n\t\t{{ b \n\r\n}}\n\n\n    {% endif %}\r \n</div>".toList, rfl, rfl,
    blanksGo_sound rfl, blanksGo_sound (by decide), solid_of_head (by decide), solid_of_head (by decide),
    .gap (u := "<div>".toList) (g := ['\n']) (g' := "\n    ".toList) (by decide) (by decide)
      (blanksGo_sound (by decide)) (blanksGo_sound (by decide)) (by decide) (by decide) rfl
      (solid_of_head (by decide)) (solid_of_head (by decide)) <|
    .gap (u := "{% if a %}".toList) (g := ['\n']) (g' := "\n\t\t".toList) (by decide) (by decide)
      (blanksGo_sound (by decide)) (blanksGo_sound (by decide)) (by decide) (by decide) rfl
      (solid_of_head (by decide)) (solid_of_head (by decide)) <|
    .gap (u := "{{ b".toList) (g := " \n ".toList) (g' := " \n\r\n".toList) (by decide) (by decide)
      (blanksGo_sound (by decide)) (blanksGo_sound (by decide)) (by decide) (by decide) rfl
      (solid_of_head (by decide)) (solid_of_head (by decide)) <|
    .gap (u := "}}".toList) (g := ['\n']) (g' := "\n\n\n    ".toList) (by decide) (by decide)
      (blanksGo_sound (by decide)) (blanksGo_sound (by decide)) (by decide) (by decide) rfl
      (solid_of_head (by decide)) (solid_of_head (by decide)) <|
    .gap (u := "{% endif %}\r".toList) (g := " \n".toList) (g' := " \n".toList) (by decide) (by decide)
      (blanksGo_sound (by decide)) (blanksGo_sound (by decide)) (by decide) (by decide) rfl
      (solid_of_head (by decide)) (solid_of_head (by decide)) <|
    .line (u := "</div>".toList) (by decide)⟩

/-- The first character of the whitespace matters: a CR directly behind `not in` is not taken for the
end of a word. -/
example :
    Returns (parse (fun _ => 1) "{{ a not in\nb }}".toList) (fun p => p.errors.length == 0) = true ∧
    Returns (parse (fun _ => 1) "{{ a not in\r\nb }}".toList) (fun p => p.errors.length == 1) =
      true := by
  decide +kernel

/-- Whitespace in front of the tokens of a file. -/
example :
    let ts := lex (fun _ => 1) "<a>\n{{ b }}</a>".toList
    let ts' := lex (fun _ => 1) "<a>  {{ b }}</a>".toList
    let g := lex (fun _ => 1) "\n ".toList
    Relayout ts ts' ∧ (∀ t ∈ g, t.kind.isTrivia = true) ∧ (∀ t ∈ ts.head?, t.kind.isTrivia = false) ∧
      g.length = 2 :=
  ⟨relayoutGo_sound (n := 100) (by decide +kernel), by decide +kernel, by decide +kernel,
    by decide +kernel⟩

end Ludtwig.Layout
