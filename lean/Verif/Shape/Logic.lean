import Verif.Parser.Hoare
import Verif.Shape.Regex

/-!
# A program logic for the children of nodes (proof device)

The open nodes are described by lists of segments, newest first: a segment stands for some children
whose kinds are a word of a regular expression, or for one completed node that may still be preceded.
`strict` says that only runs without parse errors matter; then nothing is known after an error.
-/

namespace Ludtwig.Shape
open Rx

/-- The mark for the place of explicitly consumed trivia (no node has this kind). -/
def markItem : Item := ⟨true, .TK_WHITESPACE⟩

/-- The expression for the mark. -/
def mark : Rx := .node [.TK_WHITESPACE]

/-- Do the children end with explicitly consumed trivia? -/
def endsTriv (cs : List Skel) : Bool :=
  match cs.getLast? with
  | some (.leaf .triv) => true
  | _ => false

/-- Is there a block among the children? -/
def hasBlock (cs : List Skel) : Bool := cs.any fun
  | .node _ k _ => k == .TWIG_BLOCK
  | _ => false

/-- The kind of a completed node as seen by the grammar: the content of an html string that ends with
explicitly consumed trivia has a kind of its own, and so has other content with a block in it (no node has
these kinds). -/
def label (k : SyntaxKind) (cs : List Skel) : SyntaxKind :=
  if k = .HTML_STRING_INNER then
    if endsTriv cs then .TK_LINE_BREAK else if hasBlock cs then .TK_UNKNOWN else k
  else k

theorem label_other {k : SyntaxKind} (h : k ≠ .HTML_STRING_INNER) (cs : List Skel) : label k cs = k :=
  if_neg h

/-- The children of an unfinished tree as seen by the grammar, with marks. -/
def skelItems : List Skel → List Item
  | [] => []
  | .leaf .triv :: xs => markItem :: skelItems xs
  | .leaf (.tok k) :: xs => if k.isTrivia then skelItems xs else ⟨false, k⟩ :: skelItems xs
  | .leaf (.ntok _ k) :: xs => if k.isTrivia then skelItems xs else ⟨false, k⟩ :: skelItems xs
  | .node _ k cs :: xs => ⟨true, label k cs⟩ :: skelItems xs

/-- Tokens of the grammar are not trivia. -/
def GoodLeaf : Leaf → Prop
  | .triv => True
  | .tok k => k.isTrivia = false
  | .ntok _ k => k.isTrivia = false

mutual
/-- `Conforms` for skeletons. -/
def GoodSkel (G : SyntaxKind → Rx) : Skel → Prop
  | .leaf l => GoodLeaf l
  | .node _ k cs => (G k).Lang (skelItems cs) ∧ GoodAll G cs
/-- `ConformAll` for skeletons. -/
def GoodAll (G : SyntaxKind → Rx) : List Skel → Prop
  | [] => True
  | x :: xs => GoodSkel G x ∧ GoodAll G xs
end

theorem skelItems_append (a b : List Skel) : skelItems (a ++ b) = skelItems a ++ skelItems b := by
  induction a with
  | nil => rfl
  | cons x a ih =>
    cases x with
    | leaf l =>
      cases l <;> simp only [List.cons_append, skelItems, ih]
      · split <;> simp
      · split <;> simp
    | node p k cs => simp [skelItems, ih]

theorem goodAll_append {G : SyntaxKind → Rx} {a b : List Skel} :
    GoodAll G (a ++ b) ↔ GoodAll G a ∧ GoodAll G b := by
  induction a with
  | nil => simp [GoodAll]
  | cons x a ih => simp [GoodAll, ih, and_assoc]

/-- A part of the children of an open node. -/
inductive Seg
  /-- children whose kinds are a word of the expression -/
  | rx (r : Rx)
  /-- a completed node that may be preceded, and its possible kinds -/
  | nd (c : Nat) (ks : List SyntaxKind)

/-- The children are described by the segments (newest first). -/
def Fits : List Seg → List Skel → Prop
  | [], cs => skelItems cs = []
  | .rx r :: segs, cs => ∃ a b, cs = a ++ b ∧ Fits segs a ∧ r.Lang (skelItems b)
  | .nd c ks :: segs, cs =>
    ∃ a k d b, cs = a ++ .node c k d :: b ∧ Fits segs a ∧ label k d ∈ ks ∧ skelItems b = []

/-- The expression for all segments. -/
def segsRx : List Seg → Rx
  | [] => .nil
  | .rx r :: segs => mkSeq (segsRx segs) r
  | .nd _ ks :: segs => mkSeq (segsRx segs) (.node ks)

theorem Fits.lang {segs : List Seg} {cs : List Skel} (h : Fits segs cs) :
    (segsRx segs).Lang (skelItems cs) := by
  induction segs generalizing cs with
  | nil => exact h
  | cons x segs ih =>
    cases x with
    | rx r =>
      obtain ⟨a, b, rfl, h1, h2⟩ := h
      rw [skelItems_append]
      exact lang_mkSeq.2 ⟨_, _, rfl, ih h1, h2⟩
    | nd c ks =>
      obtain ⟨a, k, d, b, rfl, h1, h2, h3⟩ := h
      rw [skelItems_append]
      exact lang_mkSeq.2 ⟨_, _, rfl, ih h1, _, h2, by simp [skelItems, h3]⟩

theorem Fits.triv {segs : List Seg} {cs b : List Skel} (h : Fits segs cs) (hb : skelItems b = []) :
    Fits segs (cs ++ b) := by
  cases segs with
  | nil => simp only [Fits] at h ⊢; rw [skelItems_append, h, hb]; rfl
  | cons x segs =>
    cases x with
    | rx r =>
      obtain ⟨a, d, rfl, h1, h2⟩ := h
      exact ⟨a, d ++ b, by simp, h1, by rw [skelItems_append, hb, List.append_nil]; exact h2⟩
    | nd c ks =>
      obtain ⟨a, k, d, e, rfl, h1, h2, h3⟩ := h
      exact ⟨a, k, d, e ++ b, by simp, h1, h2, by rw [skelItems_append, h3, hb]; rfl⟩

theorem fits_append {xs ys : List Seg} {cs : List Skel} :
    Fits (xs ++ ys) cs ↔ ∃ a b, cs = a ++ b ∧ Fits ys a ∧ Fits xs b := by
  induction xs generalizing cs with
  | nil =>
    constructor
    · intro h; exact ⟨cs, [], by simp, h, rfl⟩
    · rintro ⟨a, b, rfl, h1, h2⟩; exact Fits.triv h1 h2
  | cons x xs ih =>
    cases x with
    | rx r =>
      simp only [List.cons_append, Fits, ih]
      constructor
      · rintro ⟨a, b, rfl, ⟨c, d, rfl, h1, h2⟩, h3⟩
        exact ⟨c, d ++ b, by simp, h1, d, b, rfl, h2, h3⟩
      · rintro ⟨a, b, rfl, h1, c, d, rfl, h2, h3⟩
        exact ⟨a ++ c, d, by simp, ⟨a, c, rfl, h1, h2⟩, h3⟩
    | nd e ks =>
      simp only [List.cons_append, Fits, ih]
      constructor
      · rintro ⟨_, k, d, b, rfl, ⟨a1, a2, rfl, h1, h2⟩, h3, h4⟩
        exact ⟨a1, a2 ++ .node e k d :: b, by simp, h1, a2, k, d, b, rfl, h2, h3, h4⟩
      · rintro ⟨a1, _, rfl, h1, a2, k, d, b, rfl, h2, h3, h4⟩
        exact ⟨a1 ++ a2, k, d, b, by simp, ⟨a1, a2, rfl, h1, h2⟩, h3, h4⟩

/-- The segments `ys` say less than `xs`. -/
def Le (xs ys : List Seg) : Prop :=
  (∀ cs, Fits xs cs → Fits ys cs) ∧ ∀ c ks, .nd c ks ∈ ys → ∃ ks', .nd c ks' ∈ xs

theorem Le.refl (xs : List Seg) : Le xs xs := ⟨fun _ h => h, fun _ ks h => ⟨ks, h⟩⟩

theorem Le.trans {xs ys zs : List Seg} (h1 : Le xs ys) (h2 : Le ys zs) : Le xs zs :=
  ⟨fun cs h => h2.1 cs (h1.1 cs h), fun c ks h => by
    obtain ⟨ks', h'⟩ := h2.2 c ks h
    exact h1.2 c ks' h'⟩

theorem Le.append {xs ys xs' ys' : List Seg} (h1 : Le xs xs') (h2 : Le ys ys') :
    Le (xs ++ ys) (xs' ++ ys') := by
  refine ⟨fun cs h => ?_, fun c ks h => ?_⟩
  · obtain ⟨a, b, rfl, h3, h4⟩ := fits_append.1 h
    exact fits_append.2 ⟨a, b, rfl, h2.1 _ h3, h1.1 _ h4⟩
  · rcases List.mem_append.1 h with h | h
    · obtain ⟨ks', h'⟩ := h1.2 c ks h
      exact ⟨ks', by simp [h']⟩
    · obtain ⟨ks', h'⟩ := h2.2 c ks h
      exact ⟨ks', by simp [h']⟩

theorem Le.rx {xs ys zs : List Seg} {r r' : Rx} (hr : segsRx xs = r') (hi : incl r' r = true)
    (h : Le ys zs) : Le (xs ++ ys) (.rx r :: zs) := by
  refine Le.append (xs' := [.rx r]) ⟨fun cs hc => ?_, by simp⟩ h
  exact ⟨[], cs, rfl, rfl, incl_lang hi (hr ▸ hc.lang)⟩

theorem Le.rxSelf {xs ys zs : List Seg} {r : Rx} (hr : segsRx xs = r)
    (h : Le ys zs) : Le (xs ++ ys) (.rx r :: zs) := by
  refine Le.append (xs' := [.rx r]) ⟨fun cs hc => ?_, by simp⟩ h
  exact ⟨[], cs, rfl, rfl, hr ▸ hc.lang⟩

theorem Le.nd {ys zs : List Seg} {c : Nat} {ks ks' : List SyntaxKind}
    (hk : (ks.all (fun k => ks'.contains k)) = true)
    (h : Le ys zs) : Le (.nd c ks :: ys) (.nd c ks' :: zs) := by
  refine Le.append (xs := [.nd c ks]) (xs' := [.nd c ks']) ⟨fun cs hc => ?_, ?_⟩ h
  · obtain ⟨a, k, d, b, rfl, h1, h2, h3⟩ := hc
    simp only [List.all_eq_true, List.contains_iff_mem] at hk
    exact ⟨a, k, d, b, rfl, h1, hk _ h2, h3⟩
  · intro c' ks'' hm
    simp at hm
    exact ⟨ks, by simp [hm.1]⟩

theorem Le.nil : Le [] [] := Le.refl _

theorem Le.skip {xs ys zs : List Seg} {r : Rx} (hr : segsRx xs = r) (hi : incl r Rx.nil = true)
    (h : Le ys zs) : Le (xs ++ ys) zs := by
  refine Le.append (xs' := []) ⟨fun cs hc => ?_, by simp⟩ h
  exact incl_lang hi (hr ▸ hc.lang)

/-! ## States -/

/-- The grammar with marks: trivia are explicitly consumed at the end of strings and before
interpolations, and html strings with quotes end so. -/
def markedProduction : SyntaxKind → Rx
  | .HTML_STRING =>
    alt (sure (tok [T!"\""] ++ node [.TK_LINE_BREAK]) ++ tok [T!"\""])
      (alt (sure (tok [T!"'"] ++ node [.TK_LINE_BREAK]) ++ tok [T!"'"])
        (sure (node [.HTML_STRING_INNER])))
  | .HTML_STRING_INNER => production .HTML_STRING_INNER ++ opt mark
  | .TWIG_LITERAL_STRING_INNER =>
    star (alt anyTok (mark ++ node [.TWIG_LITERAL_STRING_INTERPOLATION])) ++ opt mark
  | k => production k

/-- The grammar with marks for files with errors. -/
def markedDamaged : SyntaxKind → Rx
  | .ERROR => production .ERROR
  | .HTML_STRING => (markedProduction .HTML_STRING).damage
  | .HTML_STRING_INNER => (production .HTML_STRING_INNER).damage ++ opt mark
  | .TWIG_LITERAL_STRING_INNER =>
    star (alt anyTok.damage (mark ++ node [.TWIG_LITERAL_STRING_INTERPOLATION])) ++ opt mark
  | k => (production k).damage

/-- The grammar for runs without errors or for all runs. -/
def gram (strict : Bool) : SyntaxKind → Rx := if strict then markedProduction else markedDamaged

/-- Each open node of the direct machine is described by its segments; the nodes that may still be
preceded are newer than the open node. -/
inductive FramesFit (G : SyntaxKind → Rx) : List (Nat × List Skel) → List (Nat × List Seg) → Prop
  | nil : FramesFit G [] []
  | cons {p cs segs fs F} : Fits segs cs → GoodAll G cs → (∀ c ks, .nd c ks ∈ segs → p < c) →
      FramesFit G fs F → FramesFit G ((p, cs) :: fs) ((p, segs) :: F)

/-- The state is described by the segments, or there was an error and errors do not matter. -/
def Cl (strict : Bool) (F : List (Nat × List Seg)) (h : List Token → Prop) (s : PState) : Prop :=
  (strict = true ∧ s.errors ≠ []) ∨
  (∃ frames next, Built s.events s.openMarkers ⟨[], frames, next⟩ ∧ FramesFit (gram strict) frames F ∧
    h (dropTrivia s.rest))

/-- What a function sees: the nodes it opened, innermost first, the new children of the node that was
open at its start, and what is known about the next tokens. -/
structure Abs where
  L : List (Nat × List Seg)
  vs : List Seg
  h : List Token → Prop

/-- If `f` returns, it goes from `A` to a state with `Q`. -/
def T (strict : Bool) (A : Abs) (f : P α) (Q : α → Abs → Prop) : Prop :=
  ∀ p pre F s, Cl strict (A.L ++ (p, A.vs ++ pre) :: F) A.h s → ∀ a s', f s = .ok (a, s') →
    ∃ A' : Abs, Q a A' ∧ Cl strict (A'.L ++ (p, A'.vs ++ pre) :: F) A'.h s'

/-- A function that starts with the nodes `L` open and `segs` before, and ends with all of these nodes
completed and children `S` of the node that was open before. -/
def Runs (strict : Bool) (L : List (Nat × List Seg)) (segs : List Seg) (h : List Token → Prop) (f : P α)
    (S : α → List Seg) : Prop :=
  T strict ⟨L, segs, h⟩ f (fun a A' => A'.L = [] ∧ Le A'.vs (S a))

variable {strict : Bool} {α β : Type} {L : List (Nat × List Seg)} {vs : List Seg}
  {h : List Token → Prop}

theorem FramesFit.le {G : SyntaxKind → Rx} {p : Nat} {xs ys : List Seg} {L F : List (Nat × List Seg)} :
    ∀ {frames}, FramesFit G frames (L ++ (p, xs) :: F) → Le xs ys → FramesFit G frames (L ++ (p, ys) :: F) := by
  induction L with
  | nil =>
    intro frames h hle
    cases h with
    | cons h1 h2 h3 h4 =>
      refine .cons (hle.1 _ h1) h2 (fun c ks hm => ?_) h4
      obtain ⟨ks', h'⟩ := hle.2 c ks hm
      exact h3 c ks' h'
  | cons x L ih =>
    intro frames h hle
    cases h with
    | cons h1 h2 h3 h4 => exact .cons h1 h2 h3 (ih h4 hle)

theorem Cl.le {p : Nat} {xs ys : List Seg} {F : List (Nat × List Seg)} {s : PState}
    (hs : Cl strict (L ++ (p, xs) :: F) h s) (hle : Le xs ys) : Cl strict (L ++ (p, ys) :: F) h s := by
  rcases hs with hs | ⟨frames, next, h1, h2, h3⟩
  · exact .inl hs
  · exact .inr ⟨frames, next, h1, h2.le hle, h3⟩

theorem Cl.view {F : List (Nat × List Seg)} {h' : List Token → Prop} {s : PState} (hs : Cl strict F h s)
    (hh : ∀ v, h v → h' v) : Cl strict F h' s := by
  rcases hs with hs | ⟨frames, next, h1, h2, h3⟩
  · exact .inl hs
  · exact .inr ⟨frames, next, h1, h2, hh _ h3⟩

/-! ## Basic rules -/

theorem T_pure {a : α} {A : Abs} {Q : α → Abs → Prop} (hq : Q a A) : T strict A (pure a) Q := by
  intro p pre F s hs a' s' he
  cases he
  exact ⟨A, hq, hs⟩

theorem T_bind {A : Abs} {f : P α} {g : α → P β} {Q1 : α → Abs → Prop} {Q : β → Abs → Prop}
    (hf : T strict A f Q1) (hg : ∀ a A', Q1 a A' → T strict A' (g a) Q) : T strict A (f >>= g) Q := by
  intro p pre F s hs b s' he
  replace he : P.bind f g s = .ok (b, s') := he
  unfold P.bind at he
  cases hfs : f s with
  | error e => rw [hfs] at he; cases he
  | ok r =>
    rw [hfs] at he
    obtain ⟨A', h1, h2⟩ := hf p pre F s hs r.1 r.2 hfs
    exact hg r.1 A' h1 p pre F r.2 h2 b s' he

theorem T_post {A : Abs} {f : P α} {Q Q' : α → Abs → Prop} (hf : T strict A f Q)
    (hq : ∀ a A', Q a A' → Q' a A') : T strict A f Q' := by
  intro p pre F s hs a s' he
  obtain ⟨A', h1, h2⟩ := hf p pre F s hs a s' he
  exact ⟨A', hq _ _ h1, h2⟩

theorem T_pre {h' : List Token → Prop} {f : P α} {Q : α → Abs → Prop}
    (hf : T strict ⟨L, vs, h'⟩ f Q) (hh : ∀ v, h v → h' v) : T strict ⟨L, vs, h⟩ f Q :=
  fun p pre F s hs => hf p pre F s (hs.view hh)

theorem T_panic {A : Abs} {e : Panic} {Q : α → Abs → Prop} : T strict A (P.panic e : P α) Q := by
  intro p pre F s hs a s' he
  cases he

theorem T_panicBind {A : Abs} {e : Panic} {g : α → P β} {Q : β → Abs → Prop} :
    T strict A ((P.panic e : P α) >>= g) Q := by
  intro p pre F s hs a s' he
  cases he

theorem T_last {A : Abs} {f : P α} {Q : α → Abs → Prop} (hf : T strict A (f >>= pure) Q) :
    T strict A f Q := by rwa [bind_pure_P] at hf

theorem T_assoc {γ : Type} {A : Abs} {f : P α} {g : α → P β} {k : β → P γ} {Q : γ → Abs → Prop}
    (hf : T strict A (f >>= fun a => g a >>= k) Q) : T strict A ((f >>= g) >>= k) Q := by
  rwa [bind_assoc_P]

theorem T_pureBind {a : α} {g : α → P β} {Q : β → Abs → Prop} {A : Abs} (hg : T strict A (g a) Q) :
    T strict A (pure a >>= g) Q := hg

theorem T_le {m : Nat} {c c' : List Seg} {f : P α} {Q : α → Abs → Prop} (hle : Le c c')
    (hf : T strict ⟨(m, c') :: L, vs, h⟩ f Q) : T strict ⟨(m, c) :: L, vs, h⟩ f Q :=
  fun p pre F s hs => hf p pre F s (Cl.le (L := []) hs hle)

theorem T_le_nil {vs' : List Seg} {f : P α} {Q : α → Abs → Prop} (hle : Le vs vs')
    (hf : T strict ⟨[], vs', h⟩ f Q) : T strict ⟨[], vs, h⟩ f Q :=
  fun p pre F s hs => hf p pre F s (Cl.le (L := []) hs (hle.append (Le.refl pre)))

/-! ## Looking at the next tokens -/

theorem Cl.rest {F : List (Nat × List Seg)} {s : PState} (hs : Cl strict F h s) {r : List Token}
    (hr : r = s.rest ∨ r = dropTrivia s.rest) : Cl strict F h { s with rest := r } := by
  rcases hs with hs | ⟨frames, next, h1, h2, h3⟩
  · exact .inl hs
  · refine .inr ⟨frames, next, h1, h2, ?_⟩
    rcases hr with rfl | rfl
    · exact h3
    · rw [dropTrivia_idem]; exact h3

theorem b_peek {f : P α} {φ : List Token → α} {g : α → P β} {Q : β → Abs → Prop} (hf : Peek f φ)
    (hg : ∀ a, T strict ⟨L, vs, fun v => φ v = a ∧ h v⟩ (g a) Q) :
    T strict ⟨L, vs, h⟩ (f >>= g) Q := by
  intro p pre F s hs b s' he
  obtain ⟨r, h1, h2⟩ := hf s
  replace he : P.bind f g s = .ok (b, s') := he
  unfold P.bind at he
  rw [h1] at he
  refine hg _ p pre F _ ?_ b s' he
  have h3 := hs.rest h2
  rcases h3 with h3 | ⟨frames, next, h4, h5, h6⟩
  · exact .inl h3
  · refine .inr ⟨frames, next, h4, h5, ?_, h6⟩
    rcases h2 with rfl | rfl
    · rfl
    · simp [dropTrivia_idem]

theorem b_ifP {c : P Bool} {φ : List Token → Bool} {t f : P α} {g : α → P β} {Q : β → Abs → Prop}
    (hc : Peek c φ)
    (ht : T strict ⟨L, vs, fun v => φ v = true ∧ h v⟩ (t >>= g) Q)
    (hf : T strict ⟨L, vs, fun v => φ v = false ∧ h v⟩ (f >>= g) Q) :
    T strict ⟨L, vs, h⟩ (ifP c t f >>= g) Q := by
  unfold ifP
  refine T_assoc (b_peek hc (fun b => ?_))
  cases b
  · exact hf
  · exact ht

theorem b_getPos {g : Nat → P β} {Q : β → Abs → Prop} {A : Abs}
    (hg : ∀ n, T strict A (g n) Q) : T strict A (getPos >>= g) Q :=
  fun p pre F s hs b s' he => hg s.rest.length p pre F s hs b s' he

/-! ## Primitives -/

theorem b_start {g : Marker → P β} {Q : β → Abs → Prop}
    (hg : ∀ m, T strict ⟨(m, []) :: L, vs, h⟩ (g m) Q) : T strict ⟨L, vs, h⟩ (start >>= g) Q := by
  intro p pre F s hs b s' he
  refine hg s.events.length p pre F _ ?_ b s' he
  rcases hs with hs | ⟨frames, next, h1, h2, h3⟩
  · exact .inl hs
  · exact .inr ⟨_, _, h1.start, .cons rfl trivial (by simp) h2, h3⟩

theorem Cl.complete {s s' : PState} {m c : Nat} {ts us : List Seg} {q : Nat} {F : List (Nat × List Seg)}
    {k kl : SyntaxKind} (hs : Cl strict ((m, ts) :: (q, us) :: F) h s)
    (hk : incl (segsRx ts) (gram strict k) = true)
    (hl : ∀ cs, Fits ts cs → GoodAll (gram strict) cs → label k cs = kl)
    (he : complete m k s = .ok (c, s')) : c = m ∧ Cl strict ((q, .nd m [kl] :: us) :: F) h s' := by
  have hform : c = m ∧ s' = { s with
      events := s.events.set m (.startNode k none) ++ [.finishNode]
      openMarkers := s.openMarkers.tail } := by
    unfold Ludtwig.complete at he
    split at he
    · split at he
      · split at he
        · cases he
          rename_i m' rest' ho hm _
          exact ⟨rfl, by simp [ho]⟩
        · cases he
      · cases he
    · cases he
  obtain ⟨rfl, rfl⟩ := hform
  refine ⟨rfl, ?_⟩
  rcases hs with hs | ⟨frames, next, hb, hF, h3⟩
  · exact .inl hs
  · refine .inr ?_
    cases hF with
    | @cons _ cs _ fs _ f1 f2 f3 f4 =>
      cases f4 with
      | @cons _ ds _ fs' _ g1 g2 g3 g4 =>
        have hc := hb.complete k
        have hlt : q < c := hb.ordered.2.1
        refine ⟨_, _, hc, .cons ?_ ?_ ?_ g4, h3⟩
        · exact ⟨ds, k, cs, [], rfl, g1, by simp [hl cs f1 f2], rfl⟩
        · rw [goodAll_append]
          exact ⟨g2, ⟨incl_lang hk f1.lang, f2⟩, trivial⟩
        · intro c' ks hm
          simp only [List.mem_cons, Seg.nd.injEq] at hm
          rcases hm with ⟨rfl, _⟩ | hm
          · exact hlt
          · exact g3 c' ks hm

theorem b_complete {g : CompletedMarker → P β} {Q : β → Abs → Prop} {m q : Nat} {ts us : List Seg}
    {k : SyntaxKind} {r : Rx} (hr : segsRx ts = r) (hk : incl r (gram strict k) = true)
    (hg : T strict ⟨(q, .nd m [k] :: us) :: L, vs, h⟩ (g m) Q)
    (hne : k ≠ .HTML_STRING_INNER := by first | assumption | (intro hn; cases hn)) :
    T strict ⟨(m, ts) :: (q, us) :: L, vs, h⟩ (complete m k >>= g) Q := by
  intro p pre F s hs b s' he
  replace he : P.bind (complete m k) g s = .ok (b, s') := he
  unfold P.bind at he
  cases hc : complete m k s with
  | error e => rw [hc] at he; cases he
  | ok x =>
    rw [hc] at he
    obtain ⟨h1, h2⟩ := hs.complete (c := x.1) (s' := x.2) (hr ▸ hk) (fun cs _ _ => label_other hne cs) hc
    replace he : g x.1 x.2 = _ := he
    rw [h1] at he
    exact hg p pre F x.2 h2 b s' he

theorem b_complete_nil {g : CompletedMarker → P β} {Q : β → Abs → Prop} {m : Nat} {ts : List Seg}
    {k : SyntaxKind} {r : Rx} (hr : segsRx ts = r) (hk : incl r (gram strict k) = true)
    (hg : T strict ⟨[], .nd m [k] :: vs, h⟩ (g m) Q)
    (hne : k ≠ .HTML_STRING_INNER := by first | assumption | (intro hn; cases hn)) :
    T strict ⟨[(m, ts)], vs, h⟩ (complete m k >>= g) Q := by
  intro p pre F s hs b s' he
  replace he : P.bind (complete m k) g s = .ok (b, s') := he
  unfold P.bind at he
  cases hc : complete m k s with
  | error e => rw [hc] at he; cases he
  | ok x =>
    rw [hc] at he
    obtain ⟨h1, h2⟩ := hs.complete (c := x.1) (s' := x.2) (hr ▸ hk) (fun cs _ _ => label_other hne cs) hc
    replace he : g x.1 x.2 = _ := he
    rw [h1] at he
    exact hg p pre F x.2 h2 b s' he

/-- Does the expression mention a child? -/
def Rx.mentions : Rx → Item → Bool
  | never, _ => false
  | nil, _ => false
  | tok ks, i => !i.isNode && ks.contains i.kind
  | tokNot ks, i => !i.isNode && !ks.contains i.kind
  | node ks, i => i.isNode && ks.contains i.kind
  | seq a b, i => a.mentions i || b.mentions i
  | alt a b, i => a.mentions i || b.mentions i
  | star a, i => a.mentions i
  | sure a, i => a.mentions i

theorem lang_mentions {r : Rx} : ∀ {w : List Item}, r.Lang w → ∀ i ∈ w, r.mentions i = true := by
  induction r with
  | never => intro w h; exact h.elim
  | nil => intro w h i hi; rw [show w = [] from h] at hi; cases hi
  | tok ks => rintro w ⟨k, hk, rfl⟩ i hi; simp at hi; subst hi; simp [mentions, hk]
  | tokNot ks => rintro w ⟨k, hk, rfl⟩ i hi; simp at hi; subst hi; simp [mentions, hk]
  | node ks => rintro w ⟨k, hk, rfl⟩ i hi; simp at hi; subst hi; simp [mentions, hk]
  | seq a b iha ihb =>
    rintro w ⟨u, v, rfl, hu, hv⟩ i hi
    rcases List.mem_append.1 hi with hi | hi
    · simp [mentions, iha hu i hi]
    · simp [mentions, ihb hv i hi]
  | alt a b iha ihb =>
    rintro w (h | h) i hi
    · simp [mentions, iha h i hi]
    · simp [mentions, ihb h i hi]
  | star a iha =>
    rintro w ⟨ws, rfl, hw⟩ i hi
    obtain ⟨u, hu, hi⟩ := List.mem_flatten.1 hi
    exact iha (hw u hu) i hi
  | sure a iha => intro w h i hi; exact iha h i hi

theorem skelItems_nil {G : SyntaxKind → Rx} {xs : List Skel} (h : skelItems xs = [])
    (hg : GoodAll G xs) : xs = [] := by
  cases xs with
  | nil => rfl
  | cons x xs =>
    obtain ⟨h1, _⟩ := hg
    cases x with
    | node p k cs => simp [skelItems] at h
    | leaf l =>
      cases l with
      | triv => simp [skelItems] at h
      | tok k => have : k.isTrivia = false := h1; simp [skelItems, this] at h
      | ntok n k => have : k.isTrivia = false := h1; simp [skelItems, this] at h

theorem label_ne_mark {k : SyntaxKind} {cs : List Skel} (h : k ≠ .TK_WHITESPACE) :
    (⟨true, label k cs⟩ : Item) ≠ markItem := by
  unfold label markItem
  split
  · split
    · simp
    · split
      · simp
      · rename_i h1 _ _; subst h1; simp
  · simpa using h

theorem skelItems_mark {G : SyntaxKind → Rx} {xs : List Skel} (h : skelItems xs = [markItem])
    (hg : GoodAll G xs) (hG : G .TK_WHITESPACE = .never) : xs = [.leaf .triv] := by
  cases xs with
  | nil => cases h
  | cons x xs =>
    obtain ⟨h1, h2⟩ := hg
    cases x with
    | node p k cs =>
      exfalso
      simp only [skelItems, List.cons.injEq] at h
      refine label_ne_mark ?_ h.1
      rintro rfl
      have := h1.1
      rw [hG] at this
      exact this
    | leaf l =>
      cases l with
      | triv =>
        simp only [skelItems, List.cons.injEq, true_and] at h
        rw [skelItems_nil h h2]
      | tok k => have : k.isTrivia = false := h1; simp [skelItems, this, markItem] at h
      | ntok n k => have : k.isTrivia = false := h1; simp [skelItems, this, markItem] at h

theorem gram_mark : gram strict .TK_WHITESPACE = .never := by cases strict <;> rfl

/-- The content of an html string that ends with explicitly consumed trivia. -/
theorem b_complete_sealed {g : CompletedMarker → P β} {Q : β → Abs → Prop} {m q : Nat}
    {ts us : List Seg} {r : Rx} (hr : segsRx (.rx mark :: ts) = r)
    (hk : incl r (gram strict .HTML_STRING_INNER) = true)
    (hg : T strict ⟨(q, .nd m [.TK_LINE_BREAK] :: us) :: L, vs, h⟩ (g m) Q) :
    T strict ⟨(m, .rx mark :: ts) :: (q, us) :: L, vs, h⟩
      (complete m .HTML_STRING_INNER >>= g) Q := by
  intro p pre F s hs b s' he
  replace he : P.bind (complete m .HTML_STRING_INNER) g s = .ok (b, s') := he
  unfold P.bind at he
  cases hc : complete m .HTML_STRING_INNER s with
  | error e => rw [hc] at he; cases he
  | ok x =>
    rw [hc] at he
    obtain ⟨h1, h2⟩ := hs.complete (c := x.1) (s' := x.2) (kl := .TK_LINE_BREAK) (hr ▸ hk)
      (fun cs h3 h4 => by
        obtain ⟨a, d, rfl, h5, k, h6, h7⟩ := h3
        simp only [List.mem_singleton] at h6
        subst h6
        have h8 := skelItems_mark h7 (goodAll_append.1 h4).2 gram_mark
        subst h8
        simp [label, endsTriv]) hc
    replace he : g x.1 x.2 = _ := he
    rw [h1] at he
    exact hg p pre F x.2 h2 b s' he

theorem hasBlock_items {cs : List Skel} (h : hasBlock cs = true) :
    (⟨true, .TWIG_BLOCK⟩ : Item) ∈ skelItems cs := by
  obtain ⟨x, hx, hk⟩ := List.any_eq_true.1 h
  cases x with
  | leaf l => cases hk
  | node p k ds =>
    have hk : k = .TWIG_BLOCK := by simpa using hk
    subst hk
    obtain ⟨a, b, rfl⟩ := List.append_of_mem hx
    rw [skelItems_append]
    simp [skelItems, label]

/-- The content of an html string without explicitly consumed trivia and blocks. -/
theorem b_complete_plain {g : CompletedMarker → P β} {Q : β → Abs → Prop} {m q : Nat}
    {ts us : List Seg} {r : Rx} (hr : segsRx ts = r)
    (hk : incl r (gram strict .HTML_STRING_INNER) = true) (hm : Rx.mentions r markItem = false)
    (hb : Rx.mentions r ⟨true, .TWIG_BLOCK⟩ = false)
    (hg : T strict ⟨(q, .nd m [.HTML_STRING_INNER] :: us) :: L, vs, h⟩ (g m) Q) :
    T strict ⟨(m, ts) :: (q, us) :: L, vs, h⟩ (complete m .HTML_STRING_INNER >>= g) Q := by
  intro p pre F s hs b s' he
  replace he : P.bind (complete m .HTML_STRING_INNER) g s = .ok (b, s') := he
  unfold P.bind at he
  cases hc : complete m .HTML_STRING_INNER s with
  | error e => rw [hc] at he; cases he
  | ok x =>
    rw [hc] at he
    obtain ⟨h1, h2⟩ := hs.complete (c := x.1) (s' := x.2) (kl := .HTML_STRING_INNER) (hr ▸ hk)
      (fun cs h3 h4 => by
        have h5 : endsTriv cs = false := by
          rcases List.eq_nil_or_concat cs with rfl | ⟨d, y, rfl⟩
          · rfl
          · rw [List.concat_eq_append] at h3 ⊢
            unfold endsTriv
            rw [List.getLast?_append, List.getLast?_singleton]
            cases y with
            | node p k cs => rfl
            | leaf l =>
              cases l with
              | tok k => rfl
              | ntok n k => rfl
              | triv =>
                exfalso
                have h6 := lang_mentions h3.lang markItem (by rw [skelItems_append]; simp [skelItems])
                rw [hr, hm] at h6
                cases h6
        have h6 : hasBlock cs = false := by
          cases h6 : hasBlock cs with
          | false => rfl
          | true =>
            have := lang_mentions h3.lang _ (hasBlock_items h6)
            rw [hr, hb] at this
            cases this
        simp [label, h5, h6]) hc
    replace he : g x.1 x.2 = _ := he
    rw [h1] at he
    exact hg p pre F x.2 h2 b s' he

theorem Cl.precede {s s' : PState} {m c : Nat} {xs ys : List Seg} {ks : List SyntaxKind} {q : Nat}
    {F : List (Nat × List Seg)} (hs : Cl strict ((q, xs ++ .nd c ks :: ys) :: F) h s)
    (he : precede c s = .ok (m, s')) :
    Cl strict ((m, [.rx (segsRx (xs ++ [.nd c ks]))]) :: (q, ys) :: F) h s' := by
  unfold Ludtwig.precede at he
  split at he
  · rename_i k0 fp hc0
    cases he
    rcases hs with hs | ⟨frames, next, hb, hF, h3⟩
    · exact .inl hs
    · refine .inr ?_
      cases hF with
      | @cons _ cs _ fs _ f1 f2 f3 f4 =>
        have hqc : q < c := f3 c ks (by simp)
        obtain ⟨a, b, rfl, h4, h5⟩ := fits_append.1 f1
        obtain ⟨a, k, d, e, rfl, h6, h7, h8⟩ := h4
        simp only [List.append_assoc, List.cons_append] at hb f2
        obtain ⟨h9, h10⟩ := hb.precede hqc
        rw [h9] at hc0
        simp only [Option.some.injEq, Event.startNode.injEq] at hc0
        obtain ⟨rfl, rfl⟩ := hc0
        rw [goodAll_append] at f2
        refine ⟨_, _, h10, .cons ?_ f2.2 (by simp) (.cons h6 f2.1
          (fun c' ks' hm => f3 c' ks' (by simp [hm])) f4), h3⟩
        refine ⟨[], _, rfl, rfl, Fits.lang (fits_append.2 ⟨.node c k d :: e, b, by simp, ?_, h5⟩)⟩
        exact ⟨[], k, d, e, rfl, rfl, h7, h8⟩
  · cases he

theorem b_precede {g : Marker → P β} {Q : β → Abs → Prop} {c q : Nat} {xs ys : List Seg}
    {ks : List SyntaxKind} {r : Rx} (hr : segsRx (xs ++ [.nd c ks]) = r)
    (hg : ∀ m, T strict ⟨(m, [.rx r]) :: (q, ys) :: L, vs, h⟩ (g m) Q) :
    T strict ⟨(q, xs ++ .nd c ks :: ys) :: L, vs, h⟩ (precede c >>= g) Q := by
  intro p pre F s hs b s' he
  replace he : P.bind (precede c) g s = .ok (b, s') := he
  unfold P.bind at he
  cases hc : precede c s with
  | error e => rw [hc] at he; cases he
  | ok x =>
    rw [hc] at he
    have h2 := Cl.precede (m := x.1) (s' := x.2) hs hc
    rw [hr] at h2
    exact hg x.1 p pre F x.2 h2 b s' he

theorem b_precede_nil {g : Marker → P β} {Q : β → Abs → Prop} {c : Nat} {xs ys : List Seg}
    {ks : List SyntaxKind} {r : Rx} (hr : segsRx (xs ++ [.nd c ks]) = r)
    (hg : ∀ m, T strict ⟨[(m, [.rx r])], ys, h⟩ (g m) Q) :
    T strict ⟨[], xs ++ .nd c ks :: ys, h⟩ (precede c >>= g) Q := by
  intro p pre F s hs b s' he
  replace he : P.bind (precede c) g s = .ok (b, s') := he
  unfold P.bind at he
  cases hc : precede c s with
  | error e => rw [hc] at he; cases he
  | ok x =>
    rw [hc] at he
    have h2 := Cl.precede (m := x.1) (s' := x.2) (ys := ys ++ pre) (by simpa using hs) hc
    rw [hr] at h2
    exact hg x.1 p pre F x.2 h2 b s' he

theorem b_wrap {g : CompletedMarker → P β} {Q : β → Abs → Prop} {c q : Nat} {xs ys : List Seg}
    {ks : List SyntaxKind} {k : SyntaxKind} {r : Rx} (hr : segsRx (xs ++ [.nd c ks]) = r)
    (hk : incl r (gram strict k) = true)
    (hg : ∀ m, T strict ⟨(q, .nd m [k] :: ys) :: L, vs, h⟩ (g m) Q)
    (hne : k ≠ .HTML_STRING_INNER := by first | assumption | (intro hn; cases hn)) :
    T strict ⟨(q, xs ++ .nd c ks :: ys) :: L, vs, h⟩ (wrap c k >>= g) Q := by
  unfold wrap
  exact T_assoc (b_precede hr (fun m => b_complete (r := r) (by simp [segsRx, mkSeq]) hk (hg m)))

theorem b_wrap_nil {g : CompletedMarker → P β} {Q : β → Abs → Prop} {c : Nat} {xs ys : List Seg}
    {ks : List SyntaxKind} {k : SyntaxKind} {r : Rx} (hr : segsRx (xs ++ [.nd c ks]) = r)
    (hk : incl r (gram strict k) = true)
    (hg : ∀ m, T strict ⟨[], .nd m [k] :: ys, h⟩ (g m) Q)
    (hne : k ≠ .HTML_STRING_INNER := by first | assumption | (intro hn; cases hn)) :
    T strict ⟨[], xs ++ .nd c ks :: ys, h⟩ (wrap c k >>= g) Q := by
  unfold wrap
  exact T_assoc (b_precede_nil hr (fun m => b_complete_nil (r := r) (by simp [segsRx, mkSeq]) hk (hg m)))

theorem Cl.leaf {s : PState} {q : Nat} {us us' : List Seg} {F : List (Nat × List Seg)} {ev : Event}
    {l : Leaf} {rest : List Token} {h' : List Token → Prop}
    (hs : Cl strict ((q, us) :: F) h s) (hl : ev.leaf? = some l)
    (hg : GoodLeaf l) (hf : h (dropTrivia s.rest) → ∀ cs, Fits us cs → Fits us' (cs ++ [.leaf l]))
    (hu : ∀ c ks, .nd c ks ∈ us' → .nd c ks ∈ us)
    (hh : h (dropTrivia s.rest) → h' (dropTrivia rest)) :
    Cl strict ((q, us') :: F) h' { s with rest := rest, events := s.events ++ [ev] } := by
  rcases hs with hs | ⟨frames, next, hb, hF, h3⟩
  · exact .inl hs
  · refine .inr ?_
    cases hF with
    | @cons _ cs _ fs _ f1 f2 f3 f4 =>
      refine ⟨_, _, hb.leaf hl, .cons (hf h3 _ f1) ?_ (fun c ks hm => f3 c ks (hu c ks hm)) f4, hh h3⟩
      rw [goodAll_append]
      exact ⟨f2, hg, trivial⟩

theorem lang_mark : mark.Lang (skelItems [.leaf .triv]) := ⟨_, List.mem_singleton_self _, rfl⟩

theorem b_trivia {g : Unit → P β} {Q : β → Abs → Prop} {m : Nat} {us : List Seg}
    (hg : T strict ⟨(m, .rx mark :: us) :: L, vs, h⟩ (g ()) Q) :
    T strict ⟨(m, us) :: L, vs, h⟩ (explicitlyConsumeTrivia >>= g) Q := by
  intro p pre F s hs b s' he
  refine hg p pre F _ ?_ b s' he
  exact Cl.leaf (rest := s.rest) hs rfl trivial (fun _ cs hc => ⟨cs, [.leaf .triv], rfl, hc, lang_mark⟩)
    (by simp) id

theorem b_trivia_nil {g : Unit → P β} {Q : β → Abs → Prop}
    (hg : T strict ⟨[], .rx mark :: vs, h⟩ (g ()) Q) :
    T strict ⟨[], vs, h⟩ (explicitlyConsumeTrivia >>= g) Q := by
  intro p pre F s hs b s' he
  refine hg p pre F _ ?_ b s' he
  exact Cl.leaf (rest := s.rest) hs rfl trivial (fun _ cs hc => ⟨cs, [.leaf .triv], rfl, hc, lang_mark⟩)
    (by simp) id

theorem dropTrivia_head {ts : List Token} {t : Token} {rest : List Token}
    (h : dropTrivia ts = t :: rest) : t.kind.isTrivia = false := by
  induction ts with
  | nil => simp [dropTrivia] at h
  | cons x ts ih =>
    by_cases hx : x.kind.isTrivia = true
    · exact ih (by simpa [dropTrivia, hx] using h)
    · have : dropTrivia (x :: ts) = x :: ts := by simp [dropTrivia, hx]
      rw [this] at h
      cases h
      simpa using hx

theorem Cl.bumpGen {s s' : PState} {q : Nat} {us : List Seg} {F : List (Nat × List Seg)} {site : Site}
    {k : Option SyntaxKind} {t : Token} {r : Rx}
    (hs : Cl strict ((q, us) :: F) h s) (he : bumpGen site k s = .ok (t, s'))
    (hk : ∀ k', k = some k' → k'.isTrivia = false)
    (hr : ∀ ts, t.kind.isTrivia = false → h (t :: ts) → r.Lang [⟨false, k.getD t.kind⟩]) :
    Cl strict ((q, .rx r :: us) :: F) (fun v => ∃ ts, t.kind.isTrivia = false ∧ h (t :: ts) ∧ v = dropTrivia ts) s' := by
  unfold Ludtwig.bumpGen at he
  split at he
  · cases he
  · rename_i t' rest hd
    cases he
    have ht := dropTrivia_head hd
    have h0 : (k.getD t.kind).isTrivia = false := by
      cases k with
      | none => exact ht
      | some k => exact hk k rfl
    refine Cl.leaf hs (l := .tok (k.getD t.kind)) rfl h0 ?_ (by simp) ?_
    · intro hv cs hc
      rw [hd] at hv
      refine ⟨cs, [.leaf (.tok (k.getD t.kind))], rfl, hc, ?_⟩
      simp only [skelItems, h0, Bool.false_eq_true, if_false]
      exact hr rest ht hv
    · intro hv
      rw [hd] at hv
      exact ⟨rest, ht, hv, rfl⟩

theorem b_bumpGen {site : Site} {k : Option SyntaxKind} {g : Token → P β} {Q : β → Abs → Prop}
    {m : Nat} {us : List Seg} (r : Rx)
    (hk : ∀ k', k = some k' → k'.isTrivia = false)
    (hr : ∀ t ts, t.kind.isTrivia = false → h (t :: ts) → r.Lang [⟨false, k.getD t.kind⟩])
    (hg : ∀ t, T strict ⟨(m, .rx r :: us) :: L, vs, fun v => ∃ ts, t.kind.isTrivia = false ∧ h (t :: ts) ∧ v = dropTrivia ts⟩
      (g t) Q) :
    T strict ⟨(m, us) :: L, vs, h⟩ (bumpGen site k >>= g) Q := by
  intro p pre F s hs b s' he
  replace he : P.bind (bumpGen site k) g s = .ok (b, s') := he
  unfold P.bind at he
  cases hc : bumpGen site k s with
  | error e => rw [hc] at he; cases he
  | ok x =>
    rw [hc] at he
    exact hg x.1 p pre F x.2 (Cl.bumpGen (t := x.1) (s' := x.2) hs hc hk (hr _)) b s' he

theorem b_bumpGen_nil {site : Site} {k : Option SyntaxKind} {g : Token → P β} {Q : β → Abs → Prop}
    (r : Rx)
    (hk : ∀ k', k = some k' → k'.isTrivia = false)
    (hr : ∀ t ts, t.kind.isTrivia = false → h (t :: ts) → r.Lang [⟨false, k.getD t.kind⟩])
    (hg : ∀ t, T strict ⟨[], .rx r :: vs, fun v => ∃ ts, t.kind.isTrivia = false ∧ h (t :: ts) ∧ v = dropTrivia ts⟩ (g t) Q) :
    T strict ⟨[], vs, h⟩ (bumpGen site k >>= g) Q := by
  intro p pre F s hs b s' he
  replace he : P.bind (bumpGen site k) g s = .ok (b, s') := he
  unfold P.bind at he
  cases hc : bumpGen site k s with
  | error e => rw [hc] at he; cases he
  | ok x =>
    rw [hc] at he
    exact hg x.1 p pre F x.2 (Cl.bumpGen (t := x.1) (s' := x.2) hs hc hk (hr _)) b s' he

theorem b_bump {site : Site} {g : Token → P β} {Q : β → Abs → Prop} {m : Nat} {us : List Seg} (r : Rx)
    (hr : ∀ t ts, t.kind.isTrivia = false → h (t :: ts) → r.Lang [⟨false, t.kind⟩])
    (hg : ∀ t, T strict ⟨(m, .rx r :: us) :: L, vs, fun v => ∃ ts, t.kind.isTrivia = false ∧ h (t :: ts) ∧ v = dropTrivia ts⟩
      (g t) Q) :
    T strict ⟨(m, us) :: L, vs, h⟩ (bump site >>= g) Q :=
  b_bumpGen r (by simp) hr hg

theorem b_bump_nil {site : Site} {g : Token → P β} {Q : β → Abs → Prop} (r : Rx)
    (hr : ∀ t ts, t.kind.isTrivia = false → h (t :: ts) → r.Lang [⟨false, t.kind⟩])
    (hg : ∀ t, T strict ⟨[], .rx r :: vs, fun v => ∃ ts, t.kind.isTrivia = false ∧ h (t :: ts) ∧ v = dropTrivia ts⟩ (g t) Q) :
    T strict ⟨[], vs, h⟩ (bump site >>= g) Q :=
  b_bumpGen_nil r (by simp) hr hg

/-- A token whose kind is known later. -/
theorem b_bumpTok {site : Site} {g : Token → P β} {Q : β → Abs → Prop} {m : Nat} {us : List Seg}
    (hg : ∀ t, T strict ⟨(m, .rx (.tok [t.kind]) :: us) :: L, vs,
      fun v => ∃ ts, t.kind.isTrivia = false ∧ h (t :: ts) ∧ v = dropTrivia ts⟩ (g t) Q) :
    T strict ⟨(m, us) :: L, vs, h⟩ (bump site >>= g) Q := by
  intro p pre F s hs b s' he
  replace he : P.bind (bump site) g s = .ok (b, s') := he
  unfold P.bind at he
  cases hc : bump site s with
  | error e => rw [hc] at he; cases he
  | ok x =>
    rw [hc] at he
    exact hg x.1 p pre F x.2 (Cl.bumpGen (t := x.1) (s' := x.2) (k := none) hs hc (by simp)
      (fun _ _ _ => ⟨_, by simp, rfl⟩)) b s' he

theorem b_bump_ {site : Site} {g : Unit → P β} {Q : β → Abs → Prop} {m : Nat} {us : List Seg} {r : Rx}
    (hr : ∀ t ts, t.kind.isTrivia = false → h (t :: ts) → r.Lang [⟨false, t.kind⟩])
    (hg : T strict ⟨(m, .rx r :: us) :: L, vs, fun v => ∃ t ts, t.kind.isTrivia = false ∧ h (t :: ts) ∧ v = dropTrivia ts⟩
      (g ()) Q) :
    T strict ⟨(m, us) :: L, vs, h⟩ (bump_ site >>= g) Q := by
  unfold bump_ discard'
  exact T_assoc (b_bump r hr (fun t => T_pre hg (fun v hv => ⟨t, hv⟩)))

theorem b_bump__nil {site : Site} {g : Unit → P β} {Q : β → Abs → Prop} {r : Rx}
    (hr : ∀ t ts, t.kind.isTrivia = false → h (t :: ts) → r.Lang [⟨false, t.kind⟩])
    (hg : T strict ⟨[], .rx r :: vs, fun v => ∃ t ts, t.kind.isTrivia = false ∧ h (t :: ts) ∧ v = dropTrivia ts⟩ (g ()) Q) :
    T strict ⟨[], vs, h⟩ (bump_ site >>= g) Q := by
  unfold bump_ discard'
  exact T_assoc (b_bump_nil r hr (fun t => T_pre hg (fun v hv => ⟨t, hv⟩)))

theorem b_bumpAs {g : Unit → P β} {Q : β → Abs → Prop} {m : Nat} {us : List Seg} {k : SyntaxKind}
    (hk : k.isTrivia = false)
    (hg : T strict ⟨(m, .rx (.tok [k]) :: us) :: L, vs, any⟩ (g ()) Q) :
    T strict ⟨(m, us) :: L, vs, h⟩ (discard' (bumpAs k) >>= g) Q := by
  unfold discard' bumpAs
  refine T_assoc (b_bumpGen (.tok [k]) (fun k' hk' => ?_) (fun _ _ _ _ => ⟨k, by simp, rfl⟩)
    (fun t => T_pre hg (fun _ _ => trivial)))
  cases hk'; exact hk

theorem b_bumpAs_nil {g : Unit → P β} {Q : β → Abs → Prop} {k : SyntaxKind} (hk : k.isTrivia = false)
    (hg : T strict ⟨[], .rx (.tok [k]) :: vs, any⟩ (g ()) Q) :
    T strict ⟨[], vs, h⟩ (discard' (bumpAs k) >>= g) Q := by
  unfold discard' bumpAs
  refine T_assoc (b_bumpGen_nil (.tok [k]) (fun k' hk' => ?_) (fun _ _ _ _ => ⟨k, by simp, rfl⟩)
    (fun t => T_pre hg (fun _ _ => trivial)))
  cases hk'; exact hk

theorem b_bumpN {g : Unit → P β} {Q : β → Abs → Prop} {m n : Nat} {us : List Seg} {k : SyntaxKind}
    (hk : k.isTrivia = false)
    (hg : T strict ⟨(m, .rx (.tok [k]) :: us) :: L, vs, any⟩ (g ()) Q) :
    T strict ⟨(m, us) :: L, vs, h⟩ (bumpNextNAs n k >>= g) Q := by
  intro p pre F s hs b s' he
  replace he : P.bind (bumpNextNAs n k) g s = .ok (b, s') := he
  unfold P.bind bumpNextNAs at he
  dsimp only at he
  split at he
  · cases he
  · rename_i x hx
    split at hx
    · cases hx
    · cases hx
      refine hg p pre F _ ?_ b s' he
      refine Cl.leaf hs (l := .ntok n k) rfl hk (fun _ cs hc => ?_) (by simp) (fun _ => trivial)
      exact ⟨cs, [.leaf (.ntok n k)], rfl, hc, k, by simp, by simp [skelItems, hk]⟩

/-! ## Errors -/

/-- After an error nothing is known if errors do not matter. -/
def err (strict : Bool) : Rx := if strict then .never else .nil

theorem Cl.error {q : Nat} {us : List Seg} {F : List (Nat × List Seg)} {s : PState}
    (hs : Cl strict ((q, us) :: F) h s) {er : ParseError} {rest : List Token}
    (hr : rest = s.rest ∨ rest = dropTrivia s.rest) :
    Cl strict ((q, .rx (err strict) :: us) :: F) h
      { s with rest := rest, errors := s.errors ++ [er] } := by
  cases strict with
  | true => exact .inl ⟨rfl, by simp⟩
  | false =>
    rcases hs with hs | ⟨frames, next, hb, hF, h3⟩
    · cases hs.1
    · refine .inr ⟨frames, next, hb, ?_, ?_⟩
      · refine FramesFit.le (L := []) hF ⟨fun cs hc => ⟨cs, [], by simp, hc, rfl⟩, ?_⟩
        intro c ks hm
        simp at hm
        exact ⟨ks, hm⟩
      · rcases hr with rfl | rfl
        · exact h3
        · rw [dropTrivia_idem]; exact h3

theorem addErrorBuilder_form {b : ErrorBuilder} {s s' : PState} {u : Unit}
    (hc : addErrorBuilder b s = .ok (u, s')) :
    ∃ rest er, (rest = s.rest ∨ rest = dropTrivia s.rest) ∧
      s' = { s with rest := rest, errors := s.errors ++ [er] } := by
  unfold addErrorBuilder at hc
  split at hc
  · dsimp only at hc
    split at hc
    · cases hc; exact ⟨_, _, .inr rfl, rfl⟩
    · split at hc
      · cases hc
      · cases hc; exact ⟨_, _, .inr rfl, rfl⟩
  · rename_i hn
    split at hc
    · cases hc; exact ⟨_, _, .inl rfl, rfl⟩
    · rename_i hr
      simp [hr] at hn

theorem b_error {e : P Unit} {g : Unit → P β} {Q : β → Abs → Prop} {m : Nat} {us : List Seg}
    (hform : ∀ s u s', e s = .ok (u, s') → ∃ rest er, (rest = s.rest ∨ rest = dropTrivia s.rest) ∧
      s' = { s with rest := rest, errors := s.errors ++ [er] })
    (hg : T strict ⟨(m, .rx (err strict) :: us) :: L, vs, h⟩ (g ()) Q) :
    T strict ⟨(m, us) :: L, vs, h⟩ (e >>= g) Q := by
  intro p pre F s hs b s' he
  replace he : P.bind e g s = .ok (b, s') := he
  unfold P.bind at he
  cases hc : e s with
  | error e => rw [hc] at he; cases he
  | ok x =>
    rw [hc] at he
    obtain ⟨rest, er, hr, hx⟩ := hform s x.1 x.2 hc
    replace he : g x.1 x.2 = _ := he
    rw [hx] at he
    exact hg p pre F _ (hs.error hr) b s' he

theorem b_error_nil {e : P Unit} {g : Unit → P β} {Q : β → Abs → Prop}
    (hform : ∀ s u s', e s = .ok (u, s') → ∃ rest er, (rest = s.rest ∨ rest = dropTrivia s.rest) ∧
      s' = { s with rest := rest, errors := s.errors ++ [er] })
    (hg : T strict ⟨[], .rx (err strict) :: vs, h⟩ (g ()) Q) :
    T strict ⟨[], vs, h⟩ (e >>= g) Q := by
  intro p pre F s hs b s' he
  replace he : P.bind e g s = .ok (b, s') := he
  unfold P.bind at he
  cases hc : e s with
  | error e => rw [hc] at he; cases he
  | ok x =>
    rw [hc] at he
    obtain ⟨rest, er, hr, hx⟩ := hform s x.1 x.2 hc
    replace he : g x.1 x.2 = _ := he
    rw [hx] at he
    exact hg p pre F _ (Cl.error hs hr) b s' he

theorem addError_form {msg : String} (s : PState) (u : Unit) (s' : PState)
    (h : addError msg s = .ok (u, s')) : ∃ rest er, (rest = s.rest ∨ rest = dropTrivia s.rest) ∧
      s' = { s with rest := rest, errors := s.errors ++ [er] } :=
  addErrorBuilder_form h

theorem addErrorAt_form {msg : String} {t : Token} (s : PState) (u : Unit) (s' : PState)
    (h : addErrorAt msg t s = .ok (u, s')) : ∃ rest er, (rest = s.rest ∨ rest = dropTrivia s.rest) ∧
      s' = { s with rest := rest, errors := s.errors ++ [er] } :=
  addErrorBuilder_form h

theorem b_addError {msg : String} {g : Unit → P β} {Q : β → Abs → Prop} {m : Nat} {us : List Seg}
    (hg : T strict ⟨(m, .rx (err strict) :: us) :: L, vs, h⟩ (g ()) Q) :
    T strict ⟨(m, us) :: L, vs, h⟩ (addError msg >>= g) Q := b_error addError_form hg

theorem b_addError_nil {msg : String} {g : Unit → P β} {Q : β → Abs → Prop}
    (hg : T strict ⟨[], .rx (err strict) :: vs, h⟩ (g ()) Q) :
    T strict ⟨[], vs, h⟩ (addError msg >>= g) Q := b_error_nil addError_form hg

theorem b_addErrorAt {msg : String} {t : Token} {g : Unit → P β} {Q : β → Abs → Prop} {m : Nat}
    {us : List Seg} (hg : T strict ⟨(m, .rx (err strict) :: us) :: L, vs, h⟩ (g ()) Q) :
    T strict ⟨(m, us) :: L, vs, h⟩ (addErrorAt msg t >>= g) Q := b_error addErrorAt_form hg

theorem b_addErrorAt_nil {msg : String} {t : Token} {g : Unit → P β} {Q : β → Abs → Prop}
    (hg : T strict ⟨[], .rx (err strict) :: vs, h⟩ (g ()) Q) :
    T strict ⟨[], vs, h⟩ (addErrorAt msg t >>= g) Q := b_error_nil addErrorAt_form hg

/-! ## Calls -/

theorem b_call {f : P α} {g : α → P β} {Q : β → Abs → Prop} {S : α → List Seg} {segs xs ts : List Seg}
    {m : Nat} (hf : Runs strict [] segs h f S) (hle : Le xs segs)
    (hg : ∀ a, T strict ⟨(m, S a ++ ts) :: L, vs, any⟩ (g a) Q) :
    T strict ⟨(m, xs ++ ts) :: L, vs, h⟩ (f >>= g) Q := by
  intro p pre F s hs b s' he
  replace he : P.bind f g s = .ok (b, s') := he
  unfold P.bind at he
  cases hc : f s with
  | error e => rw [hc] at he; cases he
  | ok x =>
    rw [hc] at he
    obtain ⟨A', ⟨h1, h2⟩, h3⟩ := hf m ts (L ++ (p, vs ++ pre) :: F) s
      (Cl.le (L := []) hs (hle.append (Le.refl ts))) x.1 x.2 hc
    rw [h1] at h3
    refine hg x.1 p pre F x.2 ?_ b s' he
    exact (Cl.le (L := []) h3 (h2.append (Le.refl ts))).view (fun _ _ => trivial)

theorem b_call_nil {f : P α} {g : α → P β} {Q : β → Abs → Prop} {S : α → List Seg}
    {segs xs ts : List Seg} (hf : Runs strict [] segs h f S) (hle : Le xs segs)
    (hg : ∀ a, T strict ⟨[], S a ++ ts, any⟩ (g a) Q) :
    T strict ⟨[], xs ++ ts, h⟩ (f >>= g) Q := by
  intro p pre F s hs b s' he
  replace he : P.bind f g s = .ok (b, s') := he
  unfold P.bind at he
  cases hc : f s with
  | error e => rw [hc] at he; cases he
  | ok x =>
    rw [hc] at he
    obtain ⟨A', ⟨h1, h2⟩, h3⟩ := hf p (ts ++ pre) F s
      (Cl.le (L := []) (by simpa using hs) (hle.append (Le.refl (ts ++ pre)))) x.1 x.2 hc
    rw [h1] at h3
    refine hg x.1 p pre F x.2 ?_ b s' he
    have := (Cl.le (L := []) h3 (h2.append (Le.refl (ts ++ pre)))).view (h' := any) (fun _ _ => trivial)
    simpa using this

theorem b_cls {f : P α} {g : α → P β} {Q : β → Abs → Prop} {S : α → List Seg} {segs xs ts : List Seg}
    {m q : Nat} (hf : Runs strict [(m, segs)] [] h f S) (hle : Le xs segs)
    (hg : ∀ a, T strict ⟨(q, S a ++ ts) :: L, vs, any⟩ (g a) Q) :
    T strict ⟨(m, xs) :: (q, ts) :: L, vs, h⟩ (f >>= g) Q := by
  intro p pre F s hs b s' he
  replace he : P.bind f g s = .ok (b, s') := he
  unfold P.bind at he
  cases hc : f s with
  | error e => rw [hc] at he; cases he
  | ok x =>
    rw [hc] at he
    obtain ⟨A', ⟨h1, h2⟩, h3⟩ := hf q ts (L ++ (p, vs ++ pre) :: F) s
      (Cl.le (L := []) hs hle) x.1 x.2 hc
    rw [h1] at h3
    refine hg x.1 p pre F x.2 ?_ b s' he
    exact (Cl.le (L := []) h3 (h2.append (Le.refl ts))).view (fun _ _ => trivial)

theorem b_cls_nil {f : P α} {g : α → P β} {Q : β → Abs → Prop} {S : α → List Seg}
    {segs xs ts : List Seg} {m : Nat} (hf : Runs strict [(m, segs)] [] h f S) (hle : Le xs segs)
    (hg : ∀ a, T strict ⟨[], S a ++ ts, any⟩ (g a) Q) :
    T strict ⟨[(m, xs)], ts, h⟩ (f >>= g) Q := by
  intro p pre F s hs b s' he
  replace he : P.bind f g s = .ok (b, s') := he
  unfold P.bind at he
  cases hc : f s with
  | error e => rw [hc] at he; cases he
  | ok x =>
    rw [hc] at he
    obtain ⟨A', ⟨h1, h2⟩, h3⟩ := hf p (ts ++ pre) F s
      (Cl.le (L := []) hs hle) x.1 x.2 hc
    rw [h1] at h3
    refine hg x.1 p pre F x.2 ?_ b s' he
    have := (Cl.le (L := []) h3 (h2.append (Le.refl (ts ++ pre)))).view (h' := any) (fun _ _ => trivial)
    simpa using this

theorem b_ext {f : P α} {g : α → P β} {Q : β → Abs → Prop} {S : α → List Seg} {ts : List Seg}
    {m : Nat} (hf : Runs strict [] [] h f S)
    (hg : ∀ a, T strict ⟨(m, S a ++ ts) :: L, vs, any⟩ (g a) Q) :
    T strict ⟨(m, ts) :: L, vs, h⟩ (f >>= g) Q :=
  b_call (xs := []) hf (Le.refl _) hg

theorem b_ext_nil {f : P α} {g : α → P β} {Q : β → Abs → Prop} {S : α → List Seg}
    (hf : Runs strict [] [] h f S)
    (hg : ∀ a, T strict ⟨[], S a ++ vs, any⟩ (g a) Q) :
    T strict ⟨[], vs, h⟩ (f >>= g) Q :=
  b_call_nil (xs := []) hf (Le.refl _) hg

theorem Runs.pre {f : P α} {S : α → List Seg} {segs : List Seg} {h' : List Token → Prop}
    (hf : Runs strict L segs h' f S) (hh : ∀ v, h v → h' v) : Runs strict L segs h f S :=
  T_pre hf hh

theorem Runs.post {f : P α} {S S' : α → List Seg} {segs : List Seg}
    (hf : Runs strict L segs h f S) (hh : ∀ a, Le (S a) (S' a)) : Runs strict L segs h f S' :=
  T_post hf (fun a _ ⟨h1, h2⟩ => ⟨h1, h2.trans (hh a)⟩)

/-! ## Loops -/

theorem T_loopP {σ : Type} {body : σ → P (Bool × σ)} {Q : σ → Abs → Prop} (I : σ → Abs → Prop)
    (hbody : ∀ a A, I a A → T strict A (body a) (fun r A' => if r.1 then I r.2 A' else Q r.2 A'))
    (fuel : Nat) : ∀ a A, I a A → T strict A (loopP body fuel a) Q := by
  induction fuel with
  | zero => intro a A _; exact T_panic
  | succ fuel ih =>
    intro a A hi
    unfold loopP
    refine T_bind (hbody a A hi) (fun r A' hr => ?_)
    obtain ⟨c, a'⟩ := r
    cases c with
    | false => exact T_pure hr
    | true => exact ih a' A' hr

theorem T_loopTokens {σ : Type} {body : σ → P (Bool × σ)} {Q : σ → Abs → Prop} (I : σ → Abs → Prop)
    {a : σ} {A : Abs}
    (hbody : ∀ a A, I a A → T strict A (body a) (fun r A' => if r.1 then I r.2 A' else Q r.2 A'))
    (hi : I a A) : T strict A (loopTokens body a) Q := by
  unfold loopTokens
  exact b_getPos (fun n => T_loopP I hbody _ a A hi)

/-- A loop over the captured variables `a` with children as in `J a`. -/
theorem T_loopSegs {σ : Type} {body : σ → P (Bool × σ)} {a : σ} {segs : List Seg}
    (J S : σ → List Seg → Prop)
    (hbody : ∀ a segs, J a segs → T strict ⟨[], segs, any⟩ (body a)
      (fun r A' => A'.L = [] ∧ ∃ segs', (if r.1 then J r.2 segs' else S r.2 segs') ∧ Le A'.vs segs'))
    (hi : J a segs) : T strict ⟨[], segs, h⟩ (loopTokens body a)
      (fun a A' => A'.L = [] ∧ ∃ segs', S a segs' ∧ Le A'.vs segs') := by
  refine T_loopTokens (fun a A => A.L = [] ∧ ∃ segs', J a segs' ∧ Le A.vs segs') ?_
    ⟨rfl, segs, hi, Le.refl _⟩
  rintro a ⟨L, vs, h⟩ ⟨h1, segs', h2, h3⟩
  dsimp only at h1 h3
  subst h1
  refine T_post (T_le_nil h3 (T_pre (hbody a segs' h2) (fun _ _ => trivial))) ?_
  rintro ⟨c, a'⟩ A' ⟨h4, segs'', h5, h6⟩
  cases c with
  | false => exact ⟨h4, segs'', h5, h6⟩
  | true => exact ⟨h4, segs'', h5, h6⟩

/-- A loop over the captured variables `a` with children `I a`. -/
theorem runs_loopTokens {σ : Type} {body : σ → P (Bool × σ)} {a : σ} {segs : List Seg}
    (I S : σ → List Seg)
    (hbody : ∀ a, Runs strict [] (I a) any (body a) (fun r => if r.1 then I r.2 else S r.2))
    (hi : Le segs (I a)) : Runs strict [] segs h (loopTokens body a) S := by
  refine T_le_nil hi (T_post (T_loopSegs (fun a segs => segs = I a) (fun a segs => segs = S a) ?_ rfl) ?_)
  · rintro a _ rfl
    refine T_post (hbody a) ?_
    rintro ⟨c, a'⟩ A' ⟨h1, h2⟩
    refine ⟨h1, _, ?_, h2⟩
    cases c <;> rfl
  · rintro a A' ⟨h1, _, rfl, h2⟩
    exact ⟨h1, h2⟩

/-- `parse_many` with captured variables: unknown characters are skipped. -/
theorem T_parseManyWith {σ : Type} {early : σ → P (Bool × σ)} {child : σ → P σ} {a : σ}
    {φ : σ → List Token → Bool × σ} {segs : List Seg} (J : σ → List Seg → Prop)
    (he : ∀ a, Peek (early a) (φ a)) (hJ : ∀ a segs v, J a segs → J (φ a v).2 segs)
    (hu : ∀ a segs, J a segs → ∃ segs', J a segs' ∧ Le (.rx unknown :: segs) segs')
    (hc : ∀ a segs, J a segs → T strict ⟨[], segs, fun v => v ≠ [] ∧ ∃ a', φ a' v = (false, a)⟩ (child a)
      (fun a A' => A'.L = [] ∧ ∃ segs', J a segs' ∧ Le A'.vs segs'))
    (hi : J a segs) : T strict ⟨[], segs, h⟩ (parseManyWith early child a)
      (fun a A' => A'.L = [] ∧ ∃ segs', J a segs' ∧ Le A'.vs segs') := by
  unfold parseManyWith
  refine T_loopSegs J J (fun a segs hi => ?_) hi
  unfold parseManyStep
  have hexit : ∀ (a : σ) (segs : List Seg) (c : Bool) (h : List Token → Prop),
      (∃ segs', J a segs' ∧ Le segs segs') → T strict ⟨[], segs, h⟩ (pure (c, a))
      (fun r A' => A'.L = [] ∧ ∃ segs', (if r.1 then J r.2 segs' else J r.2 segs') ∧ Le A'.vs segs') := by
    rintro a segs c h ⟨segs', h1, h2⟩
    refine T_pure ⟨rfl, segs', ?_, h2⟩
    cases c <;> exact h1
  refine b_getPos (fun n0 => b_peek (Peek.at' _) (fun b => ?_))
  cases b with
  | true =>
    simp only [if_true]
    refine b_bump_nil unknown ?_ (fun t => hexit a _ true _ (hu a segs hi))
    rintro t ts _ ⟨hv, _⟩
    simp [isAt] at hv
    exact ⟨.TK_UNKNOWN, by simp, by rw [hv]⟩
  | false =>
    simp only [Bool.false_eq_true, if_false]
    refine b_peek Peek.atEnd (fun b => ?_)
    cases b with
    | true => exact hexit a _ false _ ⟨_, hi, Le.refl _⟩
    | false =>
      simp only [Bool.false_eq_true, if_false]
      intro p pre F s hs b s' hrun
      -- the captured variables after the test
      obtain ⟨r, h1, h2⟩ := he a s
      replace hrun : P.bind (early a) _ s = .ok (b, s') := hrun
      unfold P.bind at hrun
      rw [h1] at hrun
      have hi' := hJ a segs (dropTrivia s.rest) hi
      have hIa : Cl strict ([] ++ (p, segs ++ pre) :: F)
          (fun v => v ≠ [] ∧ φ a v = φ a (dropTrivia s.rest)) { s with rest := r } := by
        rcases hs with hs | ⟨frames, next, k1, k2, k3, k4⟩
        · exact .inl hs
        · refine .inr ⟨frames, next, k1, k2, ?_⟩
          have hd : dropTrivia r = dropTrivia s.rest := by
            rcases h2 with rfl | rfl
            · rfl
            · rw [dropTrivia_idem]
          show dropTrivia r ≠ [] ∧ φ a (dropTrivia r) = _
          rw [hd]
          refine ⟨?_, rfl⟩
          intro h0
          rw [h0] at k3
          simp at k3
      generalize φ a (dropTrivia s.rest) = x at hrun hi' hIa
      obtain ⟨x, a'⟩ := x
      dsimp only at hrun hi' hIa
      cases x with
      | true => exact hexit a' segs false _ ⟨_, hi', Le.refl _⟩ p pre F _ hIa b s' hrun
      | false =>
        simp only [Bool.false_eq_true, if_false] at hrun
        refine (T_bind (Q := fun r A' => A'.L = [] ∧ ∃ segs',
            (if r.1 then J r.2 segs' else J r.2 segs') ∧ Le A'.vs segs')
          (hc a' segs hi') (fun a2 A2 hA2 => b_getPos (fun n1 => T_pure ⟨hA2.1, ?_⟩)))
          p pre F _ (hIa.view ?_) b s' hrun
        · obtain ⟨segs', h3, h4⟩ := hA2.2
          refine ⟨segs', ?_, h4⟩
          cases (n1 != n0) <;> exact h3
        · rintro v ⟨h3, h4⟩
          exact ⟨h3, a, h4⟩

/-- `parse_many` with captured variables: unknown characters are skipped. -/
theorem runs_parseManyWith {σ : Type} {early : σ → P (Bool × σ)} {child : σ → P σ} {a : σ}
    {φ : σ → List Token → Bool × σ} {segs : List Seg} (I : σ → List Seg)
    (he : ∀ a, Peek (early a) (φ a)) (hI : ∀ a b, I (φ a b).2 = I a)
    (hu : ∀ a, Le (.rx unknown :: I a) (I a))
    (hc : ∀ a, Runs strict [] (I a) (fun v => v ≠ [] ∧ ∃ a', φ a' v = (false, a)) (child a) I)
    (hi : Le segs (I a)) : Runs strict [] segs h (parseManyWith early child a) I := by
  refine T_le_nil hi (T_post (T_parseManyWith (fun a segs => segs = I a) he ?_ ?_ ?_ rfl) ?_)
  · rintro a _ v rfl; exact (hI a v).symm
  · rintro a _ rfl; exact ⟨_, rfl, hu a⟩
  · rintro a _ rfl
    exact T_post (hc a) (fun a A' ⟨h1, h2⟩ => ⟨h1, _, rfl, h2⟩)
  · rintro a A' ⟨h1, _, rfl, h2⟩
    exact ⟨h1, h2⟩

theorem lang_star_append {r : Rx} {u v : List Item} (hu : (star r).Lang u) (hv : r.Lang v) :
    (star r).Lang (u ++ v) := by
  obtain ⟨ws, rfl, h⟩ := hu
  exact ⟨ws ++ [v], by simp, by
    intro x hx
    rcases List.mem_append.1 hx with hx | hx
    · exact h x hx
    · simp at hx; subst hx; exact hv⟩

theorem le_star {r : Rx} {xs ys : List Seg} (hx : Le xs [.rx r]) :
    Le (xs ++ .rx (star r) :: ys) (.rx (star r) :: ys) := by
  refine Le.append (xs := xs ++ [.rx (star r)]) (xs' := [.rx (star r)]) (ys := ys) ⟨?_, by simp⟩
    (Le.refl _) |> fun h => by simpa using h
  intro cs hc
  obtain ⟨a, b, rfl, ⟨a1, a2, rfl, h1, h2⟩, h3⟩ := fits_append.1 hc
  obtain ⟨b1, b2, rfl, h4, h5⟩ := hx.1 _ h3
  refine ⟨[], (a1 ++ a2) ++ (b1 ++ b2), rfl, rfl, ?_⟩
  simp only [Fits] at h1 h4
  rw [skelItems_append, skelItems_append, skelItems_append, h1, h4]
  exact lang_star_append h2 h5

theorem le_alt_left {r r' : Rx} : Le [.rx r] [.rx (alt r r')] := by
  refine ⟨fun cs ⟨a, b, h1, h2, h3⟩ => ⟨a, b, h1, h2, .inl h3⟩, by simp⟩

theorem le_alt_right {r r' : Rx} : Le [.rx r'] [.rx (alt r r')] := by
  refine ⟨fun cs ⟨a, b, h1, h2, h3⟩ => ⟨a, b, h1, h2, .inr h3⟩, by simp⟩

/-- The child parser of a list behaves the same with the list so far. -/
theorem Runs.frame {f : P α} {S : α → List Seg} {segs : List Seg}
    (hf : Runs strict [] [] h f S) : Runs strict [] segs h f (fun a => S a ++ segs) := by
  intro p pre F s hs a s' he
  obtain ⟨A', ⟨h1, h2⟩, h3⟩ := hf p (segs ++ pre) F s (by simpa using hs) a s' he
  refine ⟨⟨A'.L, A'.vs ++ segs, A'.h⟩, ⟨h1, h2.append (Le.refl _)⟩, ?_⟩
  simpa using h3

/-- `parse_many`. -/
theorem runs_parseMany {early : P Bool} {child : P Unit} {φ : List Token → Bool} {r : Rx}
    (he : Peek early φ)
    (hc : Runs strict [] [] (fun v => v ≠ [] ∧ φ v = false) child (fun _ => [.rx r])) :
    Runs strict [] [] h (parseMany early child) (fun _ => [.rx (many r)]) := by
  unfold parseMany
  refine runs_parseManyWith (φ := fun _ v => (φ v, ())) (fun _ => [.rx (many r)])
    (fun _ => he.bind (fun _ => .pure _)) (fun _ _ => rfl) (fun _ => ?_) (fun _ => ?_) ?_
  · exact le_star (xs := [.rx unknown]) le_alt_left
  · refine (Runs.frame hc).pre ?_ |>.post (fun _ => le_star (xs := [.rx r]) le_alt_right)
    rintro v ⟨h1, a', h2⟩
    simp at h2
    exact ⟨h1, h2⟩
  · refine ⟨fun cs hcs => ?_, by simp⟩
    simp only [Fits] at hcs
    exact ⟨[], cs, rfl, rfl, [], by simp [hcs], by simp⟩

theorem le_plus {r : Rx} : Le [.rx r] [.rx (.seq r (star r))] := by
  refine ⟨fun cs hcs => ?_, by simp⟩
  obtain ⟨a, b, rfl, h1, h2⟩ := hcs
  exact ⟨a, b, rfl, h1, _, [], by simp, h2, [], by simp, by simp⟩

theorem le_plus_more {r : Rx} : Le [.rx r, .rx (.seq r (star r))] [.rx (.seq r (star r))] := by
  refine ⟨fun cs hcs => ?_, by simp⟩
  obtain ⟨a, b, rfl, ⟨c, d, rfl, h1, h2⟩, h3⟩ := hcs
  simp only [Fits] at h1
  obtain ⟨u, v, e, h4, h5⟩ := h2
  refine ⟨[], (c ++ d) ++ b, rfl, rfl, u, v ++ skelItems b, ?_, h4, lang_star_append h5 h3⟩
  rw [skelItems_append, skelItems_append, h1, e, List.nil_append, List.append_assoc]

end Ludtwig.Shape
