import Verif.Rules.NeatFix
import Verif.Rules.OnlyBlanks

/-!
# Fixing quotes and layout changes whitespace and quotes only: property C95
-/

namespace Ludtwig.Rules

open Cli Lexer Template
open Layout hiding Tidy
open Shape hiding directive

/-- The characters of a text other than whitespace and quotes, in their order. -/
def signs (s : Text) : Text := (visible s).filter (fun c => !(c == '"' || c == '\''))

theorem signs_append (s t : Text) : signs (s ++ t) = signs s ++ signs t := by
  unfold signs
  rw [visible_append, List.filter_append]

/-- The signs of some tokens. -/
def signsOf (ls : List (SyntaxKind × Text)) : Text := signs (ls.map (·.2)).flatten

theorem signsOf_append (a b : List (SyntaxKind × Text)) : signsOf (a ++ b) = signsOf a ++ signsOf b := by
  unfold signsOf
  rw [List.map_append, List.flatten_append, signs_append]

/-- Tokens of quotes have no signs. -/
def Plain (ls : List (SyntaxKind × Text)) : Prop := ∀ l ∈ ls, l.1 ∈ quotes → signs l.2 = []

theorem signs_unquoted : ∀ {ys : List Tree}, Plain (leavesOf ys) →
    signsOf (leavesOf (ys.filter (fun x => !isQuoteLeaf x))) = signsOf (leavesOf ys)
  | [], _ => rfl
  | y :: ys, h => by
    have h1 : Plain (leavesOf ys) := fun l hl => h l (by rw [leavesOf]; exact List.mem_append_right _ hl)
    rw [leavesOf, signsOf_append, ← signs_unquoted h1]
    cases hy : isQuoteLeaf y with
    | false => rw [List.filter_cons_of_pos (by simp [hy]), leavesOf, signsOf_append]
    | true =>
      rw [List.filter_cons_of_neg (by simp [hy])]
      cases y with
      | node k cs => cases hy
      | token k s =>
        have : signs s = [] := by
          refine h (k, s) (by rw [leavesOf]; exact List.mem_append_left _ (by simp [Tree.leaves])) ?_
          simpa [isQuoteLeaf, quotes] using hy
        have : signsOf (Tree.token k s).leaves = [] := by simpa [signsOf, Tree.leaves] using this
        rw [this, List.nil_append]

theorem leavesOf_filter {f : Tree → Bool} {l : SyntaxKind × Text} : ∀ {ys : List Tree},
    l ∈ leavesOf (ys.filter f) → l ∈ leavesOf ys
  | [], h => h
  | y :: ys, h => by
    rw [leavesOf]
    cases hy : f y with
    | false => rw [List.filter_cons_of_neg (by simp [hy])] at h; exact List.mem_append_right _ (leavesOf_filter h)
    | true =>
      rw [List.filter_cons_of_pos hy, leavesOf] at h
      rcases List.mem_append.1 h with h | h
      · exact List.mem_append_left _ h
      · exact List.mem_append_right _ (leavesOf_filter h)

mutual
theorem leaves_unquote {l : SyntaxKind × Text} : ∀ {x : Tree}, l ∈ (unquote x).leaves → l ∈ x.leaves
  | .token k s, h => by rw [unquote] at h; exact h
  | .node k cs, h => by
    rw [unquote, Tree.leaves] at h
    rw [Tree.leaves]
    split at h
    · exact leaves_unquoteAll (leavesOf_filter h)
    · exact leaves_unquoteAll h
theorem leaves_unquoteAll {l : SyntaxKind × Text} : ∀ {xs : List Tree},
    l ∈ leavesOf (unquoteAll xs) → l ∈ leavesOf xs
  | [], h => by rw [unquoteAll] at h; exact h
  | x :: xs, h => by
    rw [unquoteAll, leavesOf] at h
    rw [leavesOf]
    rcases List.mem_append.1 h with h | h
    · exact List.mem_append_left _ (leaves_unquote h)
    · exact List.mem_append_right _ (leaves_unquoteAll h)
end

mutual
theorem signs_unquote : ∀ {x : Tree}, Plain x.leaves → signsOf (unquote x).leaves = signsOf x.leaves
  | .token k s, _ => by rw [unquote]
  | .node k cs, h => by
    rw [Tree.leaves] at h
    rw [unquote, Tree.leaves, Tree.leaves, ← signs_unquoteAll h]
    split
    · exact signs_unquoted (fun l hl => h l (leaves_unquoteAll hl))
    · rfl
theorem signs_unquoteAll : ∀ {xs : List Tree}, Plain (leavesOf xs) →
    signsOf (leavesOf (unquoteAll xs)) = signsOf (leavesOf xs)
  | [], _ => by rw [unquoteAll]
  | x :: xs, h => by
    rw [unquoteAll, leavesOf, leavesOf, signsOf_append, signsOf_append,
      signs_unquote (fun l hl => h l (by rw [leavesOf]; exact List.mem_append_left _ hl)),
      signs_unquoteAll (fun l hl => h l (by rw [leavesOf]; exact List.mem_append_right _ hl))]
end

theorem covers_plain {ls : List (SyntaxKind × Text)} {ts : List Token} (h : Covers ls ts)
    (ht : ∀ t ∈ ts, t.kind ∈ quotes → signs t.text = []) : Plain ls := by
  induction h with
  | nil => intro l hl; cases hl
  | same t _ ih =>
    exact List.forall_mem_cons.2 ⟨ht t List.mem_cons_self, ih (fun u hu => ht u (List.mem_cons_of_mem _ hu))⟩
  | word t _ _ ih =>
    exact List.forall_mem_cons.2 ⟨fun h => absurd (show (T!"word" : SyntaxKind) ∈ quotes from h) (by decide),
      ih (fun u hu => ht u (List.mem_cons_of_mem _ hu))⟩
  | merged t u _ _ _ ih =>
    exact List.forall_mem_cons.2 ⟨fun h => absurd (show (T!"word" : SyntaxKind) ∈ quotes from h) (by decide),
      ih (fun v hv => ht v (List.mem_cons_of_mem _ (List.mem_cons_of_mem _ hv)))⟩

theorem parsed_plain {errLen : Text → Nat} (he : ErrLenOk errLen) {s : Text} {p : Parse}
    (h : parse errLen s = .ok p) : Plain p.tree.leaves := by
  obtain ⟨trees, h1, h2⟩ := C05_root_covers errLen s p h
  rw [h1]
  refine covers_plain h2 (fun t ht hk => ?_)
  have hm : (t.kind, t.text) ∈ (lex errLen s).map (fun t => (t.kind, t.text)) := List.mem_map.2 ⟨t, ht, rfl⟩
  have hq := tokenized_quote (C49_lex_tokenizes he s) _ hm
  simp only [quotes, List.mem_cons, List.not_mem_nil, or_false] at hk
  rcases hk with hk | hk
  · rw [show t.text = ['"'] from hq '"' (.inl rfl) (by simpa [quoteKind] using hk)]; decide
  · rw [show t.text = ['\''] from hq '\'' (.inr rfl) (by simpa [quoteKind] using hk)]; decide

/-- The signs of a text are those of its tree without trivia and quotes. -/
theorem signs_parsed {errLen : Text → Nat} (he : ErrLenOk errLen) {s : Text} {p : Parse}
    (h : parse errLen s = .ok p) : signs s = signsOf (leavesOf (unquoteAll p.tree.strip)) := by
  have hplain : Plain (leavesOf (bare p.tree)) := by
    rw [leaves_bare]
    exact fun l hl => parsed_plain he h l (List.mem_filter.1 hl).1
  rw [strip_bare, signs_unquoteAll hplain]
  unfold signs signsOf signs
  rw [visible_bare he h]

/-- C95: processing a template as in C79, that is with any of the rules for layout and for quotes and the rules
without suggestions, changes nothing but whitespace and quotes: what is parsed, what is written and what is in the
file afterwards has the other characters of the original, none lost, none added, none moved. -/
theorem C95_neat_fix_keeps_signs {errLen : Text → Nat} (he : ErrLenOk errLen) (hl : ErrLineLocal errLen)
    (ha : ErrAhead errLen) (config : Config) (active : List RuleName) (hactive : ∀ n ∈ active, n ∈ neatRules)
    {sort : List (RuleName × Suggestion) → List (RuleName × Suggestion)} (hsort : SortsRanges sort)
    (flags : Flags) (writeOk : Bool) {original : Text} (ht : TemplateText errLen original) :
    let run := runAnalysis (realEngine errLen config active sort) flags writeOk original
    (∀ t ∈ run.parsed ++ run.writes, signs t = signs original) ∧
      signs (contentAfter original run) = signs original := by
  intro run
  obtain ⟨_, old, h1, h2⟩ := C79_neat_fix_keeps_trees he hl ha config active hactive hsort flags writeOk ht
  have hall : ∀ t ∈ run.parsed ++ run.writes, signs t = signs original := by
    intro t ht
    obtain ⟨_, new, h3, h4⟩ := h2 t ht
    rw [signs_parsed he h1, signs_parsed he h3, h4]
  refine ⟨hall, ?_⟩
  unfold contentAfter
  cases hw : run.writes.getLast? with
  | none => rfl
  | some t => exact hall t (List.mem_append_right _ (List.mem_of_getLast? hw))

/-- The file of C79: it gets two pairs of quotes in place of one, and indentation. -/
example : SortsRanges insertionSort ∧ ErrLineLocal (fun _ => 1) ∧ ErrAhead (fun _ => 1) ∧
    TemplateText (fun _ => 1) neatSample ∧
    contentAfter neatSample (runAnalysis (realEngine (fun _ => 1) defaultConfig neatRules insertionSort) ⟨true, false⟩
      true neatSample) = "<p\n   a=\"b\" c=\"d\"></p>".toList ∧
    signs neatSample = "<pa=bc=d></p>".toList :=
  ⟨insertionSort_sorts, errLineLocal_one, errAhead_one, NeatSample.isTemplate, by decide +kernel, by decide +kernel⟩

end Ludtwig.Rules
