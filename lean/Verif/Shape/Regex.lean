import Verif.Shape.Spec

/-!
# Deciding inclusion of regular expressions (proof device)

`incl r p` is a computation; if it returns `true`, every word of `r` is a word of `p`. It follows the
derivatives of both expressions through all reachable pairs of an expression and a set of
expressions, and then checks that the pairs found are closed under derivatives.
-/

namespace Ludtwig.Shape.Rx

/-- Does the expression accept the empty list? -/
def nullable : Rx → Bool
  | never => false
  | nil => true
  | tok _ => false
  | tokNot _ => false
  | node _ => false
  | seq a b => nullable a && nullable b
  | alt a b => nullable a || nullable b
  | star _ => true
  | sure a => nullable a

/-- Sets of children. -/
inductive Cls
  | tok (k : SyntaxKind)
  | tokNot (ks : List SyntaxKind)
  | node (k : SyntaxKind)
  deriving DecidableEq

def Cls.Has : Cls → Item → Prop
  | .tok k, i => i = ⟨false, k⟩
  | .tokNot ks, i => ∃ k, k ∉ ks ∧ i = ⟨false, k⟩
  | .node k, i => i = ⟨true, k⟩

def Cls.sub : Cls → Cls → Bool
  | .tok k, .tok k' => k == k'
  | .tok k, .tokNot ks => !ks.contains k
  | .tokNot ks, .tokNot ks' => ks'.all (fun k => ks.contains k)
  | .node k, .node k' => k == k'
  | _, _ => false

theorem Cls.sub_has {a b : Cls} (h : a.sub b = true) {i : Item} (hi : a.Has i) : b.Has i := by
  cases a <;> cases b <;> simp only [Cls.sub, Bool.false_eq_true, beq_iff_eq, Bool.not_eq_true',
    List.contains_eq_mem, decide_eq_false_iff_not, List.all_eq_true, decide_eq_true_eq] at h
  · subst h; exact hi
  · exact ⟨_, h, hi⟩
  · obtain ⟨k, hk, rfl⟩ := hi
    exact ⟨k, fun hm => hk (h k hm), rfl⟩
  · subst h; exact hi

/-- A sequence, simplified. -/
def mkSeq : Rx → Rx → Rx
  | nil, b => b
  | never, _ => never
  | a, nil => a
  | a, b => seq a b

theorem lang_mkSeq {a b : Rx} {w : List Item} : (mkSeq a b).Lang w ↔ (seq a b).Lang w := by
  have hnil : ∀ (a : Rx), a.Lang w ↔ (seq a nil).Lang w := by
    intro a
    constructor
    · intro h; exact ⟨w, [], by simp, h, rfl⟩
    · rintro ⟨u, v, rfl, hu, rfl⟩; simpa using hu
  unfold mkSeq
  split
  · constructor
    · intro h; exact ⟨[], w, rfl, rfl, h⟩
    · rintro ⟨u, v, rfl, rfl, hv⟩; exact hv
  · constructor
    · intro h; exact h.elim
    · rintro ⟨u, v, rfl, hu, hv⟩; exact hu.elim
  · exact hnil _
  · exact Iff.rfl

/-- First child and what follows. -/
def heads : Rx → List (Cls × Rx)
  | never => []
  | nil => []
  | tok ks => ks.map (fun k => (.tok k, nil))
  | tokNot ks => [(.tokNot ks, nil)]
  | node ks => ks.map (fun k => (.node k, nil))
  | seq a b =>
    let l := (heads a).map (fun x => (x.1, mkSeq x.2 b))
    if nullable a then l ++ heads b else l
  | alt a b => heads a ++ heads b
  | star a => (heads a).map (fun x => (x.1, mkSeq x.2 (star a)))
  | sure a => heads a

theorem nullable_iff {r : Rx} : nullable r = true ↔ r.Lang [] := by
  induction r with
  | never => simp [nullable, Lang]
  | nil => simp [nullable, Lang]
  | tok ks => simp [nullable, Lang]
  | tokNot ks => simp [nullable, Lang]
  | node ks => simp [nullable, Lang]
  | seq a b iha ihb =>
    simp only [nullable, Bool.and_eq_true, iha, ihb, Lang]
    constructor
    · rintro ⟨h1, h2⟩; exact ⟨[], [], rfl, h1, h2⟩
    · rintro ⟨u, v, h, h1, h2⟩
      obtain ⟨rfl, rfl⟩ := List.append_eq_nil_iff.1 h.symm
      exact ⟨h1, h2⟩
  | alt a b iha ihb => simp [nullable, iha, ihb, Lang]
  | star a iha => simp only [nullable, Lang, true_iff]; exact ⟨[], rfl, by simp⟩
  | sure a iha => simpa [nullable, Lang] using iha

theorem lang_cons {r : Rx} {i : Item} {w : List Item} :
    r.Lang (i :: w) ↔ ∃ x ∈ heads r, x.1.Has i ∧ x.2.Lang w := by
  induction r generalizing w with
  | never => simp [heads, Lang]
  | nil => simp [heads, Lang]
  | tok ks =>
    simp only [Lang, heads, List.mem_map]
    constructor
    · rintro ⟨k, hk, h⟩
      simp at h
      exact ⟨_, ⟨k, hk, rfl⟩, h.1, h.2⟩
    · rintro ⟨_, ⟨k, hk, rfl⟩, h1, h2⟩
      exact ⟨k, hk, by rw [show w = [] from h2, show i = _ from h1]⟩
  | tokNot ks =>
    simp only [Lang, heads, List.mem_singleton]
    constructor
    · rintro ⟨k, hk, h⟩
      simp at h
      exact ⟨_, rfl, ⟨k, hk, h.1⟩, h.2⟩
    · rintro ⟨_, rfl, ⟨k, hk, h1⟩, h2⟩
      exact ⟨k, hk, by rw [show w = [] from h2, show i = _ from h1]⟩
  | node ks =>
    simp only [Lang, heads, List.mem_map]
    constructor
    · rintro ⟨k, hk, h⟩
      simp at h
      exact ⟨_, ⟨k, hk, rfl⟩, h.1, h.2⟩
    · rintro ⟨_, ⟨k, hk, rfl⟩, h1, h2⟩
      exact ⟨k, hk, by rw [show w = [] from h2, show i = _ from h1]⟩
  | seq a b iha ihb =>
    have hl : (∃ x ∈ (heads a).map (fun x => (x.1, mkSeq x.2 b)), x.1.Has i ∧ x.2.Lang w) ↔
        ∃ u v, w = u ++ v ∧ a.Lang (i :: u) ∧ b.Lang v := by
      constructor
      · rintro ⟨_, hm, h1, h2⟩
        obtain ⟨x, hx, rfl⟩ := List.mem_map.1 hm
        obtain ⟨u, v, rfl, hu, hv⟩ := lang_mkSeq.1 h2
        exact ⟨u, v, rfl, iha.2 ⟨x, hx, h1, hu⟩, hv⟩
      · rintro ⟨u, v, rfl, hu, hv⟩
        obtain ⟨x, hx, h1, h2⟩ := iha.1 hu
        exact ⟨_, List.mem_map.2 ⟨x, hx, rfl⟩, h1, lang_mkSeq.2 ⟨u, v, rfl, h2, hv⟩⟩
    have hs : (seq a b).Lang (i :: w) ↔
        (a.Lang [] ∧ b.Lang (i :: w)) ∨ ∃ u v, w = u ++ v ∧ a.Lang (i :: u) ∧ b.Lang v := by
      constructor
      · rintro ⟨u, v, h, hu, hv⟩
        cases u with
        | nil => simp only [List.nil_append] at h; subst h; exact .inl ⟨hu, hv⟩
        | cons j u =>
          simp only [List.cons_append, List.cons.injEq] at h
          obtain ⟨rfl, rfl⟩ := h
          exact .inr ⟨u, v, rfl, hu, hv⟩
      · rintro (⟨h1, h2⟩ | ⟨u, v, rfl, hu, hv⟩)
        · exact ⟨[], _, rfl, h1, h2⟩
        · exact ⟨i :: u, v, rfl, hu, hv⟩
    rw [hs, ← hl]
    simp only [heads]
    split
    · rename_i hn
      rw [nullable_iff] at hn
      simp only [List.mem_append]
      constructor
      · rintro (⟨_, h⟩ | ⟨x, hx, h⟩)
        · obtain ⟨x, hx, h⟩ := ihb.1 h
          exact ⟨x, .inr hx, h⟩
        · exact ⟨x, .inl hx, h⟩
      · rintro ⟨x, hx | hx, h⟩
        · exact .inr ⟨x, hx, h⟩
        · exact .inl ⟨hn, ihb.2 ⟨x, hx, h⟩⟩
    · rename_i hn
      rw [nullable_iff] at hn
      constructor
      · rintro (⟨h, _⟩ | h)
        · exact absurd h hn
        · exact h
      · exact .inr
  | alt a b iha ihb =>
    simp only [Lang, heads, List.mem_append, iha, ihb]
    constructor
    · rintro (⟨x, hx, h⟩ | ⟨x, hx, h⟩)
      · exact ⟨x, .inl hx, h⟩
      · exact ⟨x, .inr hx, h⟩
    · rintro ⟨x, hx | hx, h⟩
      · exact .inl ⟨x, hx, h⟩
      · exact .inr ⟨x, hx, h⟩
  | star a iha =>
    simp only [heads, List.mem_map]
    constructor
    · rintro ⟨ws, h, hws⟩
      induction ws with
      | nil => simp at h
      | cons u ws ih =>
        cases u with
        | nil => exact ih (by simpa using h) (fun u hu => hws u (by simp [hu]))
        | cons j u =>
          simp only [List.flatten_cons, List.cons_append, List.cons.injEq] at h
          obtain ⟨rfl, rfl⟩ := h
          obtain ⟨x, hx, h1, h2⟩ := iha.1 (hws (i :: u) (by simp))
          exact ⟨_, ⟨x, hx, rfl⟩, h1, lang_mkSeq.2
            ⟨u, ws.flatten, rfl, h2, ws, rfl, fun u hu => hws u (by simp [hu])⟩⟩
    · rintro ⟨_, ⟨x, hx, rfl⟩, h1, h2⟩
      obtain ⟨u, v, rfl, hu, ws, rfl, hws⟩ := lang_mkSeq.1 h2
      refine ⟨(i :: u) :: ws, rfl, ?_⟩
      intro y hy
      rcases List.mem_cons.1 hy with rfl | hy
      · exact iha.2 ⟨x, hx, h1, hu⟩
      · exact hws y hy
  | sure a iha => exact iha

/-! ## Inclusion -/

/-- Adds the elements of the first list that are not in the second one. -/
def addNew {α : Type} [DecidableEq α] : List α → List α → List α
  | [], l => l
  | x :: xs, l => if l.contains x then addNew xs l else addNew xs (x :: l)

theorem mem_addNew {α : Type} [DecidableEq α] {xs l : List α} {x : α} :
    x ∈ addNew xs l ↔ x ∈ xs ∨ x ∈ l := by
  induction xs generalizing l with
  | nil => simp [addNew]
  | cons y xs ih =>
    simp only [addNew]
    split
    · rename_i hy
      simp at hy
      rw [ih]
      simp only [List.mem_cons]
      constructor
      · rintro (h | h)
        · exact .inl (.inr h)
        · exact .inr h
      · rintro ((rfl | h) | h)
        · exact .inr hy
        · exact .inl h
        · exact .inr h
    · rw [ih]
      simp only [List.mem_cons]
      constructor
      · rintro (h | rfl | h)
        · exact .inl (.inr h)
        · exact .inl (.inl rfl)
        · exact .inr h
      · rintro ((rfl | h) | h)
        · exact .inr (.inl rfl)
        · exact .inl h
        · exact .inr (.inr h)

/-- What can follow a child of the given class in a set of expressions. -/
def after (c : Cls) (ps : List Rx) : List Rx :=
  addNew (ps.flatMap (fun p => ((heads p).filter (fun x => c.sub x.1)).map (·.2))) []

/-- The next pairs. -/
def nexts (s : Rx × List Rx) : List (Rx × List Rx) :=
  (heads s.1).map (fun x => (x.2, after x.1 s.2))

/-- The reachable pairs, if the bound is large enough. -/
def explore : Nat → List (Rx × List Rx) → List (Rx × List Rx) → List (Rx × List Rx)
  | 0, _, seen => seen
  | _ + 1, [], seen => seen
  | n + 1, s :: todo, seen =>
    let new := (nexts s).filter (fun x => !seen.contains x && !todo.contains x)
    explore n (addNew new todo) (addNew new seen)

/-- The pairs are closed under the steps and accept the empty list on the right whenever they do on
the left. -/
def closed (S : List (Rx × List Rx)) : Bool :=
  S.all (fun s => (!nullable s.1 || s.2.any nullable) && (nexts s).all (fun x => S.contains x))

/-- Inclusion. -/
def incl (r p : Rx) : Bool :=
  let S := explore 1000 [(r, [p])] [(r, [p])]
  S.contains (r, [p]) && closed S

theorem closed_lang {S : List (Rx × List Rx)} (hS : closed S = true) :
    ∀ (w : List Item) (r : Rx) (ps : List Rx), (r, ps) ∈ S → r.Lang w → ∃ p ∈ ps, p.Lang w := by
  simp only [closed, List.all_eq_true, Bool.and_eq_true, Bool.or_eq_true, Bool.not_eq_true',
    List.contains_iff_mem] at hS
  intro w
  induction w with
  | nil =>
    intro r ps hm hr
    rcases (hS _ hm).1 with h | h
    · rw [nullable_iff.2 hr] at h; cases h
    · obtain ⟨p, hp, h⟩ := List.any_eq_true.1 h
      exact ⟨p, hp, nullable_iff.1 h⟩
  | cons i w ih =>
    intro r ps hm hr
    obtain ⟨x, hx, h1, h2⟩ := lang_cons.1 hr
    have hn := (hS _ hm).2 (x.2, after x.1 ps) (List.mem_map.2 ⟨x, hx, rfl⟩)
    obtain ⟨q, hq, h3⟩ := ih _ _ hn h2
    simp only [after, mem_addNew, List.mem_flatMap, List.mem_map, List.mem_filter, List.not_mem_nil,
      or_false] at hq
    obtain ⟨p, hp, y, ⟨hy, hs⟩, rfl⟩ := hq
    exact ⟨p, hp, lang_cons.2 ⟨y, hy, Cls.sub_has hs h1, h3⟩⟩

theorem incl_lang {r p : Rx} (h : incl r p = true) {w : List Item} (hw : r.Lang w) : p.Lang w := by
  simp only [incl, Bool.and_eq_true, List.contains_iff_mem] at h
  obtain ⟨q, hq, hl⟩ := closed_lang h.2 w r [p] h.1 hw
  simp at hq
  subst hq
  exact hl

end Ludtwig.Shape.Rx
