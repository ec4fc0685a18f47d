import Verif.Layout.Leading
import Verif.Layout.Samples

/-!
# Added whitespace does not change the structure (theorem)
-/

namespace Ludtwig.Layout

open Lexer

theorem sim_widened {toks toks' : List Token} (h : Widened toks toks') :
    Sim ⟨toks, true⟩ (initial toks) (initial toks') where
  rest := h.lay
  last := fun h => by cases h
  events := rfl
  opened := rfl
  errors := rfl
  sync := ⟨toks, rfl, rfl⟩

/-- **C86.** A file without syntax errors has none, and the same syntax tree up to whitespace and
line breaks, after whitespace and line breaks were added between its tokens, also where there were
none before. -/
theorem C86_widened {toks toks' : List Token} (h : Widened toks toks') {p : Parse}
    (hp : parseLexed toks = .ok p) (he : p.errors = []) :
    ∃ p', parseLexed toks' = .ok p' ∧ p'.errors = [] ∧ bare p'.tree = bare p.tree := by
  by_cases hne : toks = []
  · have hd : dropTrivia toks' = [] := by
      have := h.lay.next.1
      rw [hne] at this
      generalize dropTrivia toks' = d at this
      cases this
      rfl
    subst hne
    rw [parseLexed_trivia rfl] at hp
    cases hp
    exact ⟨_, parseLexed_trivia hd, rfl, by rw [bare_trivia, bare_trivia]⟩
  have hrel := (rel_parseRoot (R := ⟨toks, true⟩) (rel_knot (toks.length + 1) (toks'.length + 1))).sim
    (initial toks) (initial toks') (sim_widened h)
  have e1 : parseTokens toks = match parseRoot (knot (toks.length + 1)) (initial toks) with
      | .error e => .error e
      | .ok (_, s) => .ok (s.events, s.errors) := rfl
  have e2 : parseTokens toks' = match parseRoot (knot (toks'.length + 1)) (initial toks') with
      | .error e => .error e
      | .ok (_, s) => .ok (s.events, s.errors) := rfl
  unfold parseLexed at hp
  rw [e1] at hp
  cases hx : parseRoot (knot (toks.length + 1)) (initial toks) with
  | error e => rw [hx] at hp; cases hp
  | ok r =>
    obtain ⟨a, s⟩ := r
    rw [hx] at hp hrel
    dsimp only at hp
    rcases hrel with (hy | ⟨_, hy⟩) | hy | ⟨e, hy, _⟩ | ⟨a', t, b, t', hy, hz, _, hs, _⟩
    · cases hy
    · -- no syntax error was found
      exfalso
      have hy : s.errors ≠ [] := hy
      split at hp
      · cases hp
      · cases hp
        exact hy he
    · exact absurd hy (C03_parse_terminates _ _ (by omega))
    · cases hy
    · cases hy
      obtain ⟨q, l1, l2⟩ := hs.sync
      obtain ⟨_, trees, trees', xs, f1, f2, hb, hsink⟩ := trees_of_run hne h.lay hx l1
      rw [hsink _ _ f1] at hp
      cases hp
      refine ⟨⟨.node .ROOT trees', t'.errors⟩, ?_, ?_, ?_⟩
      · unfold parseLexed
        rw [e2, hz]
        dsimp only
        rw [← hs.events, hsink _ _ f2]
      · have := hs.errors
        have he : s.errors = [] := he
        rw [he] at this
        simpa using this.symm
      · simp [bare, hb]

/-! ## Samples -/

/-- A test for `Widened`. -/
def widenedGo : Nat → List Token → List Token → Bool
  | 0, _, _ => false
  | n + 1, ts, ts' =>
    let g := ts.takeWhile (fun t => t.kind.isTrivia)
    let g' := ts'.takeWhile (fun t => t.kind.isTrivia)
    (g.isEmpty || !g'.isEmpty) && g.all (fun t => t.text.all blankChar) &&
      g'.all (fun t => t.text.all blankChar) &&
    match dropTrivia ts, dropTrivia ts' with
    | [], [] => true
    | t :: q, t' :: q' => t.kind == t'.kind && t.text == t'.text &&
        (t.kind != T!"<" || q.head?.map (·.kind) == q'.head?.map (·.kind)) &&
        (t.kind != T!":" || (q.head?.map (·.kind.isTrivia) == q'.head?.map (·.kind.isTrivia) ||
          q.head?.any (fun u => !u.text.head?.any Char.isAlpha))) && widenedGo n q q'
    | _, _ => false

theorem widenedGo_sound : ∀ {n ts ts'}, widenedGo n ts ts' = true → Widened ts ts' := by
  intro n
  induction n with
  | zero => intro ts ts' h; cases h
  | succ n ih =>
    intro ts ts' h
    simp only [widenedGo, Bool.and_eq_true] at h
    obtain ⟨⟨⟨h1, h2⟩, h3⟩, h4⟩ := h
    have key : Widened (dropTrivia ts) (dropTrivia ts') := by
      split at h4
      · rename_i e e'
        rw [e, e']; exact .nil
      · rename_i t q t' q' e e'
        simp only [Bool.and_eq_true, beq_iff_eq, Bool.or_eq_true, bne_iff_ne] at h4
        obtain ⟨⟨⟨⟨k1, k2⟩, k3⟩, kc⟩, k4⟩ := h4
        rw [e, e']
        refine .token (dropTrivia_head e) ⟨k1, k2⟩ (fun hk => k3.resolve_left (fun hn => hn hk))
          (fun hk => ?_) (ih k4)
        rcases kc.resolve_left (fun hn => hn hk) with hb | hb
        · exact .inl hb
        · cases hq : q.head? with
          | none => rw [hq] at hb; cases hb
          | some u =>
            rw [hq] at hb
            exact .inr ⟨u, hq, by simpa using hb⟩
      · cases h4
    have e : ∀ l : List Token, l = l.takeWhile (fun t => t.kind.isTrivia) ++ dropTrivia l :=
      fun l => (List.takeWhile_append_dropWhile).symm
    have tr : ∀ l : List Token, ∀ t ∈ l.takeWhile (fun t => t.kind.isTrivia), t.kind.isTrivia = true :=
      fun l => List.all_eq_true.1 (List.all_takeWhile (p := fun t : Token => t.kind.isTrivia))
    have hd : ∀ l : List Token, ∀ t ∈ (dropTrivia l).head?, t.kind.isTrivia = false := by
      intro l t ht
      cases hr : dropTrivia l with
      | nil => rw [hr] at ht; cases ht
      | cons u q =>
        rw [hr] at ht
        cases ht
        exact dropTrivia_head hr
    rw [e ts, e ts']
    by_cases hg' : ts'.takeWhile (fun t => t.kind.isTrivia) = []
    · have hg : ts.takeWhile (fun t => t.kind.isTrivia) = [] := by
        rw [hg'] at h1
        simpa using h1
      rw [hg, hg']
      exact key
    · exact .gap (fun t ht => ⟨tr _ t ht, List.all_eq_true.1 h2 t ht⟩)
        ⟨hg', fun t ht => ⟨tr _ t ht, List.all_eq_true.1 h3 t ht⟩⟩ (hd _) (hd _) key

/-- Whitespace added in many places: between tags, inside an expression, before `=`, in a name of an
attribute behind `:`, at the beginning and the end of the file. -/
example :
    let s := "<a :b=\"c\">{%if x%}{{[1,2]|f}}{%else%}y{%endif%}</a>".toList
    let s' := "\n<a :b = \"c\" >\n{% if x %}\n  {{ [ 1 , 2 ] | f }}\n{%\nelse %} y\n{% endif %}\n</ a >\n".toList
    Widened (lex (fun _ => 1) s) (lex (fun _ => 1) s') ∧
      ((lex (fun _ => 1) s).length < (lex (fun _ => 1) s').length) ∧
      Returns (parse (fun _ => 1) s) (fun p => p.errors.isEmpty) = true :=
  ⟨widenedGo_sound (n := 100) (by decide +kernel), by decide +kernel, by decide +kernel⟩

/-- Behind `<`, and between `:` and a name, added whitespace changes the structure. -/
example : Returns (parse (fun _ => 1) "<a></a>".toList) (fun p => p.errors.isEmpty) = true ∧
    Returns (parse (fun _ => 1) "< a></a>".toList) (fun p => p.errors.isEmpty) = false ∧
    Returns (parse (fun _ => 1) "<a :b></a>".toList) (fun p => p.errors.isEmpty) = true ∧
    Returns (parse (fun _ => 1) "<a : b></a>".toList) (fun p => p.errors.isEmpty) = false := by
  decide +kernel

end Ludtwig.Layout
