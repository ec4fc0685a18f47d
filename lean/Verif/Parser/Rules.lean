import Verif.Parser.Hoare

/-!
# Calls, loops and error recovery in the program logic (proof device)
-/

namespace Ludtwig

variable {toks : List Token} {α β : Type} {L : List (Nat × List Nat)} {vs : List Nat} {n : Nat}
  {h : List Token → Prop} {e : Bool}

/-- An ordinary function: it closes all markers that it opens. -/
def Ext (toks : List Token) (n : Nat) (h : List Token → Prop) (f : P α) (R : α → AS → Prop) : Prop :=
  ∀ e, J toks ⟨[], [], n, h, e⟩ f
    (fun a A' => A'.L = [] ∧ A'.n ≤ n ∧ R a A' ∧ (e = true → A'.e = true))

/-- A function that gets a completed node of its caller's node. -/
def NExt (toks : List Token) (n : Nat) (h : List Token → Prop) (node : Nat) (f : P α)
    (R : α → AS → Prop) : Prop :=
  ∀ vs e, node ∈ vs → J toks ⟨[], vs, n, h, e⟩ f
    (fun a A' => A'.L = [] ∧ A'.n ≤ n ∧ R a A' ∧ (e = true → A'.e = true))

/-- A function that gets an open marker and completes it. -/
def Cls (toks : List Token) (n : Nat) (h : List Token → Prop) (outer : Nat) (f : P α)
    (R : α → AS → Prop) : Prop :=
  ∀ ts vs e, J toks ⟨[(outer, ts)], vs, n, h, e⟩ f
    (fun a A' => A'.L = [] ∧ A'.n ≤ n ∧ R a A' ∧ (e = true → A'.e = true))

/-- Nothing about the result. -/
abbrev RU : α → AS → Prop := fun _ _ => True
/-- The result is a completed node. -/
def RM : CompletedMarker → AS → Prop := fun a A => a ∈ A.vs
/-- The result is a completed node or none. -/
def RO : Option CompletedMarker → AS → Prop := fun a A => ∀ c, a = some c → c ∈ A.vs
/-- The result is a completed node, and a token was consumed. -/
def RMS (n : Nat) : CompletedMarker → AS → Prop := fun a A => a ∈ A.vs ∧ A.n < n
/-- The result is a completed node and a token was consumed, or none. -/
def ROS (n : Nat) : Option CompletedMarker → AS → Prop :=
  fun a A => ∀ c, a = some c → c ∈ A.vs ∧ A.n < n

theorem St.weak {F s n' h' e'} (hs : St toks F n' h' e' s) (hn : n' ≤ n) (hh : ∀ v, h' v → h v)
    (he : e = true → e' = true) : St toks F n h e s :=
  ⟨hs.inv, Nat.le_trans hs.len hn, hh _ hs.view, fun x => hs.err (he x)⟩

theorem Ext.mono {f : P α} {R R' : α → AS → Prop} (hf : Ext toks n h f R)
    (hr : ∀ a A, A.n ≤ n → R a A → R' a A) : Ext toks n h f R' :=
  fun e => J_post (hf e) (fun a A' ⟨h1, h2, h3, h4⟩ => ⟨h1, h2, hr a A' h2 h3, h4⟩)

theorem Ext.toU {f : P α} {R : α → AS → Prop} (hf : Ext toks n h f R) : Ext toks n h f RU :=
  hf.mono (fun _ _ _ _ => trivial)

theorem Ext.pre {f : P α} {R : α → AS → Prop} {h' : List Token → Prop} (hf : Ext toks n h' f R)
    (hh : ∀ v, h v → h' v) : Ext toks n h f R :=
  fun e => J_pre (hf e) hh

theorem NExt.mono {f : P α} {c : Nat} {R R' : α → AS → Prop} (hf : NExt toks n h c f R)
    (hr : ∀ a A, A.n ≤ n → R a A → R' a A) : NExt toks n h c f R' :=
  fun vs e hc => J_post (hf vs e hc) (fun a A' ⟨h1, h2, h3, h4⟩ => ⟨h1, h2, hr a A' h2 h3, h4⟩)

/-! ## Calls -/

/-- A call, with the node of the caller as a frame. -/
theorem b_call {f : P α} {g : α → P β} {Q : β → AS → Prop} {R : α → AS → Prop} {m : Nat}
    {ts : List Nat}
    (hf : J toks ⟨[], ts, n, h, e⟩ f
      (fun a A' => A'.L = [] ∧ A'.n ≤ n ∧ R a A' ∧ (e = true → A'.e = true)))
    (hg : ∀ a ts' n' h' e', n' ≤ n → R a ⟨[], ts', n', h', e'⟩ →
      J toks ⟨(m, ts') :: L, vs, n', any, e⟩ (g a) Q) :
    J toks ⟨(m, ts) :: L, vs, n, h, e⟩ (f >>= g) Q := by
  intro p us F s hs
  have h1 := hf m [] (L ++ (p, us ++ vs) :: F) s (by simpa using hs)
  show match P.bind f g s with | .ok (a, s') => _ | .error e => _
  unfold P.bind
  cases hfs : f s with
  | error e => rw [hfs] at h1; exact h1
  | ok r =>
    rw [hfs] at h1
    obtain ⟨⟨L', ts', n', h', e'⟩, ⟨h2, h3, h4, h5⟩, hs'⟩ := h1
    dsimp only at h2 h3 h5
    subst h2
    refine hg r.1 ts' n' h' e' h3 h4 p us F r.2 (hs'.weak (Nat.le_refl _) (fun _ _ => trivial) h5)

/-- A call, with no frame. -/
theorem b_call_nil {f : P α} {g : α → P β} {Q : β → AS → Prop} {R : α → AS → Prop}
    (hf : J toks ⟨[], vs, n, h, e⟩ f
      (fun a A' => A'.L = [] ∧ A'.n ≤ n ∧ R a A' ∧ (e = true → A'.e = true)))
    (hg : ∀ a vs' n' h' e', n' ≤ n → R a ⟨[], vs', n', h', e'⟩ →
      J toks ⟨[], vs', n', any, e⟩ (g a) Q) :
    J toks ⟨[], vs, n, h, e⟩ (f >>= g) Q := by
  refine J_bind hf (fun a A' ⟨h1, h2, h3, h4⟩ => ?_)
  obtain ⟨L', vs', n', h', e'⟩ := A'
  dsimp only at h1 h2 h4
  subst h1
  intro p us F s hs
  exact hg a vs' n' h' e' h2 h3 p us F s (hs.weak (Nat.le_refl _) (fun _ _ => trivial) h4)

theorem Ext.at {f : P α} {R : α → AS → Prop} (hf : Ext toks n h f R) (ts : List Nat) :
    J toks ⟨[], ts, n, h, e⟩ f (fun a A' => A'.L = [] ∧ A'.n ≤ n ∧
      (∃ ws, A'.vs = ts ++ ws ∧ R a ⟨A'.L, ws, A'.n, A'.h, A'.e⟩) ∧ (e = true → A'.e = true)) := by
  intro p us F s hs
  have h1 := hf e p (us ++ ts) F s (by simpa using hs)
  cases hfs : f s with
  | error e => rw [hfs] at h1; exact h1
  | ok r =>
    rw [hfs] at h1
    obtain ⟨⟨L', ts', n', h', e'⟩, ⟨h2, h3, h4, h5⟩, hs'⟩ := h1
    exact ⟨⟨L', ts ++ ts', n', h', e'⟩, ⟨h2, h3, ⟨ts', rfl, h4⟩, h5⟩, by simpa using hs'⟩

theorem b_ext {f : P α} {g : α → P β} {Q : β → AS → Prop} {R : α → AS → Prop} {m : Nat}
    {ts : List Nat} (hf : Ext toks n h f R)
    (hg : ∀ a ws n' h' e', n' ≤ n → R a ⟨[], ws, n', h', e'⟩ →
      J toks ⟨(m, ts ++ ws) :: L, vs, n', any, e⟩ (g a) Q) :
    J toks ⟨(m, ts) :: L, vs, n, h, e⟩ (f >>= g) Q :=
  b_call (hf.at ts) (fun a ts' n' h' e' hn ⟨ws, h1, h2⟩ => by
    dsimp only at h1 h2; subst h1; exact hg a ws n' h' e' hn h2)

theorem b_ext_nil {f : P α} {g : α → P β} {Q : β → AS → Prop} {R : α → AS → Prop}
    (hf : Ext toks n h f R)
    (hg : ∀ a ws n' h' e', n' ≤ n → R a ⟨[], ws, n', h', e'⟩ →
      J toks ⟨[], vs ++ ws, n', any, e⟩ (g a) Q) :
    J toks ⟨[], vs, n, h, e⟩ (f >>= g) Q :=
  b_call_nil (hf.at vs) (fun a ts' n' h' e' hn ⟨ws, h1, h2⟩ => by
    dsimp only at h1 h2; subst h1; exact hg a ws n' h' e' hn h2)

theorem b_node {f : P α} {g : α → P β} {Q : β → AS → Prop} {R : α → AS → Prop} {m c : Nat}
    {ts : List Nat} (hf : NExt toks n h c f R) (hc : c ∈ ts)
    (hg : ∀ a ts' n' h' e', n' ≤ n → R a ⟨[], ts', n', h', e'⟩ →
      J toks ⟨(m, ts') :: L, vs, n', any, e⟩ (g a) Q) :
    J toks ⟨(m, ts) :: L, vs, n, h, e⟩ (f >>= g) Q :=
  b_call (hf ts e hc) hg

theorem b_node_nil {f : P α} {g : α → P β} {Q : β → AS → Prop} {R : α → AS → Prop} {c : Nat}
    (hf : NExt toks n h c f R) (hc : c ∈ vs)
    (hg : ∀ a vs' n' h' e', n' ≤ n → R a ⟨[], vs', n', h', e'⟩ →
      J toks ⟨[], vs', n', any, e⟩ (g a) Q) :
    J toks ⟨[], vs, n, h, e⟩ (f >>= g) Q :=
  b_call_nil (hf vs e hc) hg

theorem b_cls {f : P α} {g : α → P β} {Q : β → AS → Prop} {R : α → AS → Prop} {c m : Nat}
    {ts us : List Nat} (hf : Cls toks n h c f R)
    (hg : ∀ a us' n' h' e', n' ≤ n → R a ⟨[], us', n', h', e'⟩ →
      J toks ⟨(m, us') :: L, vs, n', any, e⟩ (g a) Q) :
    J toks ⟨(c, ts) :: (m, us) :: L, vs, n, h, e⟩ (f >>= g) Q := by
  intro p us1 F s hs
  have h1 := hf ts us e m [] (L ++ (p, us1 ++ vs) :: F) s (by simpa using hs)
  show match P.bind f g s with | .ok (a, s') => _ | .error e => _
  unfold P.bind
  cases hfs : f s with
  | error e => rw [hfs] at h1; exact h1
  | ok r =>
    rw [hfs] at h1
    obtain ⟨⟨L', ts', n', h', e'⟩, ⟨h2, h3, h4, h5⟩, hs'⟩ := h1
    dsimp only at h2 h3 h5
    subst h2
    refine hg r.1 ts' n' h' e' h3 h4 p us1 F r.2 (hs'.weak (Nat.le_refl _) (fun _ _ => trivial) h5)

theorem b_cls_nil {f : P α} {g : α → P β} {Q : β → AS → Prop} {R : α → AS → Prop} {c : Nat}
    {ts : List Nat} (hf : Cls toks n h c f R)
    (hg : ∀ a vs' n' h' e', n' ≤ n → R a ⟨[], vs', n', h', e'⟩ →
      J toks ⟨[], vs', n', any, e⟩ (g a) Q) :
    J toks ⟨[(c, ts)], vs, n, h, e⟩ (f >>= g) Q := by
  refine J_bind (hf ts vs e) (fun a A' ⟨h1, h2, h3, h4⟩ => ?_)
  obtain ⟨L', vs', n', h', e'⟩ := A'
  dsimp only at h1 h2 h4
  subst h1
  intro p us F s hs
  exact hg a vs' n' h' e' h2 h3 p us F s (hs.weak (Nat.le_refl _) (fun _ _ => trivial) h4)

/-! ## Simple combinators -/

theorem b_discard {f : P α} {g : Unit → P β} {Q : β → AS → Prop} {A : AS}
    (hf : J toks A (f >>= fun _ => g ()) Q) : J toks A (discard' f >>= g) Q := by
  unfold discard'
  exact J_assoc hf

theorem b_someP {f : P CompletedMarker} {g : Option CompletedMarker → P β} {Q : β → AS → Prop}
    {A : AS} (hf : J toks A (f >>= fun c => g (some c)) Q) : J toks A (someP f >>= g) Q := by
  unfold someP
  exact J_assoc hf

theorem b_complete_ {g : Unit → P β} {Q : β → AS → Prop} {m : Nat} {ts : List Nat} {q us}
    {k : SyntaxKind} (hk : k = .ERROR → e = true)
    (hg : J toks ⟨(q, us ++ [m]) :: L, vs, n, h, e⟩ (g ()) Q) :
    J toks ⟨(m, ts) :: (q, us) :: L, vs, n, h, e⟩ (complete_ m k >>= g) Q :=
  b_discard (b_complete hk hg)

theorem b_complete__nil {g : Unit → P β} {Q : β → AS → Prop} {m : Nat} {ts : List Nat}
    {k : SyntaxKind} (hk : k = .ERROR → e = true)
    (hg : J toks ⟨[], vs ++ [m], n, h, e⟩ (g ()) Q) :
    J toks ⟨[(m, ts)], vs, n, h, e⟩ (complete_ m k >>= g) Q :=
  b_discard (b_complete_nil hk hg)

theorem b_wrap {g : CompletedMarker → P β} {Q : β → AS → Prop} {c q : Nat} {ts : List Nat}
    {k : SyntaxKind} (hc : c ∈ ts) (hk : k = .ERROR → e = true)
    (hg : ∀ m ts', m ∈ ts' → J toks ⟨(q, ts') :: L, vs, n, h, e⟩ (g m) Q) :
    J toks ⟨(q, ts) :: L, vs, n, h, e⟩ (wrap c k >>= g) Q := by
  unfold wrap
  exact J_assoc (b_precede hc (fun m ts' => b_complete hk (hg m _ (by simp))))

theorem b_wrap_nil {g : CompletedMarker → P β} {Q : β → AS → Prop} {c : Nat}
    {k : SyntaxKind} (hc : c ∈ vs) (hk : k = .ERROR → e = true)
    (hg : ∀ m vs', m ∈ vs' → J toks ⟨[], vs', n, h, e⟩ (g m) Q) :
    J toks ⟨[], vs, n, h, e⟩ (wrap c k >>= g) Q := by
  unfold wrap
  exact J_assoc (b_precede_nil hc (fun m ts' => b_complete_nil hk (hg m _ (by simp))))

theorem b_if {c : Prop} [Decidable c] {t f : P α} {g : α → P β} {Q : β → AS → Prop} {A : AS}
    (ht : c → J toks A (t >>= g) Q) (hf : ¬ c → J toks A (f >>= g) Q) :
    J toks A ((if c then t else f) >>= g) Q := by
  split
  · exact ht ‹_›
  · exact hf ‹_›

theorem b_ifNone {f : P (Option α)} {t : P Unit} {g : Unit → P β} {Q : β → AS → Prop} {A : AS}
    (hf : J toks A (f >>= fun r => (match r with
      | some _ => pure ()
      | none => t : P Unit) >>= g) Q) : J toks A (ifNone f t >>= g) Q := by
  unfold ifNone
  exact J_assoc hf

theorem b_getPos {g : Nat → P β} {Q : β → AS → Prop}
    (hg : ∀ n0, n0 ≤ n → J toks ⟨L, vs, n0, h, e⟩ (g n0) Q) :
    J toks ⟨L, vs, n, h, e⟩ (getPos >>= g) Q := by
  intro p us F s hs
  exact hg s.rest.length hs.len p us F s ⟨hs.inv, Nat.le_refl _, hs.view, hs.err⟩

/-! ## Loops -/

theorem J_loopP {σ : Type} {body : σ → P (Bool × σ)} {Q : σ → AS → Prop} (I : σ → AS → Prop)
    (hbody : ∀ a A, I a A → J toks A (body a)
      (fun r A' => if r.1 then I r.2 A' ∧ A'.n < A.n else Q r.2 A')) (fuel : Nat) :
    ∀ a A, A.n < fuel → I a A → J toks A (loopP body fuel a) Q := by
  induction fuel with
  | zero => intro a A hn; omega
  | succ fuel ih =>
    intro a A hn hi
    unfold loopP
    refine J_bind (hbody a A hi) (fun r A' hr => ?_)
    obtain ⟨c, a'⟩ := r
    cases c with
    | false => exact J_pure hr
    | true =>
      simp only [if_true] at hr
      exact ih a' A' (by omega) hr.1

theorem J_loopTokens {σ : Type} {body : σ → P (Bool × σ)} {Q : σ → AS → Prop} (I : σ → AS → Prop)
    {a : σ} (hbody : ∀ a A, I a A → J toks A (body a)
      (fun r A' => if r.1 then I r.2 A' ∧ A'.n < A.n else Q r.2 A'))
    (hi : ∀ n0, n0 ≤ n → I a ⟨L, vs, n0, h, e⟩) :
    J toks ⟨L, vs, n, h, e⟩ (loopTokens body a) Q := by
  unfold loopTokens
  exact b_getPos (fun n0 hn => J_loopP I hbody _ a _ (by simp) (hi n0 hn))

/-- `parse_many` with captured variables that satisfy `I`. -/
theorem J_many {σ : Type} {early : σ → P (Bool × σ)} {child : σ → P σ} {a : σ}
    {φ : σ → List Token → Bool × σ} (I : σ → List Nat → Prop)
    (he : ∀ a, Peek (early a) (φ a))
    (hei : ∀ a v ts, I a ts → I (φ a v).2 ts)
    (hc : ∀ a a' vs' n' e, n' ≤ n → I a' vs' →
      J toks ⟨[], vs', n', fun v => v ≠ [] ∧ φ a v = (false, a'), e⟩ (child a')
        (fun a A' => A'.L = [] ∧ A'.n ≤ n' ∧ I a A'.vs ∧ (e = true → A'.e = true)))
    (hi : I a vs) :
    J toks ⟨[], vs, n, h, e⟩ (parseManyWith early child a)
      (fun a A' => A'.L = [] ∧ A'.n ≤ n ∧ I a A'.vs ∧ (e = true → A'.e = true)) := by
  unfold parseManyWith
  refine J_loopTokens (fun a A => A.L = [] ∧ A.n ≤ n ∧ I a A.vs ∧ (e = true → A.e = true)) ?_
    (fun n0 hn => ⟨rfl, hn, hi, id⟩)
  rintro a ⟨L', vs', n', h', e'⟩ ⟨h1, h2, h3, h4⟩
  dsimp only at h1 h2 h3 h4
  subst h1
  unfold parseManyStep
  refine b_getPos (fun n0 hn0 => b_peek (Peek.at' _) (fun b => ?_))
  cases b with
  | true =>
    simp only [if_true]
    refine b_bump ?_ (fun t n1 hn1 _ _ => J_pure ?_)
    · rintro v ⟨hv, _⟩ rfl; simp [isAt] at hv
    · exact ⟨⟨rfl, by dsimp only; omega, h3, h4⟩, by dsimp only; omega⟩
  | false =>
    simp only [Bool.false_eq_true, if_false]
    refine b_peek Peek.atEnd (fun b => ?_)
    cases b with
    | true => exact J_pure ⟨rfl, by dsimp only; omega, h3, h4⟩
    | false =>
      simp only [Bool.false_eq_true, if_false]
      refine b_peek (he a) (fun r => ?_)
      obtain ⟨x, a'⟩ := r
      dsimp only
      refine J_fact (φ := I a' vs') ?_ (fun h3' => ?_)
      · rintro v _ ⟨hv, _⟩
        have := hei a v vs' h3
        rwa [hv] at this
      cases x with
      | true => exact J_pure ⟨rfl, by dsimp only; omega, h3', h4⟩
      | false =>
        simp only [Bool.false_eq_true, if_false]
        refine J_pre (h' := fun v => v ≠ [] ∧ φ a v = (false, a')) ?_ ?_
        · refine J_bind (hc a a' vs' n0 e' (by omega) h3') (fun a2 A2 ⟨k1, k2, k3, k4⟩ => ?_)
          obtain ⟨L2, vs2, n2, h2', e2⟩ := A2
          dsimp only at k1 k2 k3 k4
          subst k1
          refine b_getPos (fun n3 hn3 => J_pure ?_)
          cases hne : (n3 != n0) with
          | false => exact ⟨rfl, by dsimp only; omega, k3, fun x => k4 (h4 x)⟩
          | true =>
            have : n3 ≠ n0 := by simpa using hne
            exact ⟨⟨rfl, by dsimp only; omega, k3, fun x => k4 (h4 x)⟩, by dsimp only; omega⟩
        · rintro v ⟨hv, hv2, _⟩
          refine ⟨?_, hv⟩
          rintro rfl
          simp at hv2

/-- States whose view is impossible can be left out. -/
theorem J_postView {A : AS} {f : P α} {Q Q' : α → AS → Prop} (hf : J toks A f Q)
    (hq : ∀ a A', Q a A' → Q' a A' ∨ ∀ v, ¬ A'.h v) : J toks A f Q' := by
  intro p us F s hs
  have h1 := hf p us F s hs
  cases hfs : f s with
  | error e => rw [hfs] at h1; exact h1
  | ok r =>
    rw [hfs] at h1
    obtain ⟨A', h2, h3⟩ := h1
    rcases hq _ _ h2 with h4 | h4
    · exact ⟨A', h4, h3⟩
    · exact absurd h3.view (h4 _)

/-- `parse_many` with a child parser that always consumes a token: it ends at the end of the tokens
or with the early exit. -/
theorem J_parseMany_strict {early : P Bool} {child : P Unit} {φ : List Token → Bool}
    (he : Peek early φ)
    (hc : ∀ n', n' ≤ n → Ext toks n' (fun v => v ≠ [] ∧ φ v = false) child (fun _ A => A.n < n')) :
    J toks ⟨[], vs, n, h, e⟩ (parseMany early child)
      (fun _ A' => A'.L = [] ∧ A'.n ≤ n ∧ (∃ ws, A'.vs = vs ++ ws) ∧ (e = true → A'.e = true) ∧
        (∀ v, A'.h v → v = [] ∨ φ v = true) ∧
        ((∀ v, h v → v ≠ [] ∧ φ v = false) → A'.n < n)) := by
  unfold parseMany parseManyWith
  by_cases hh : ∀ v, h v → v ≠ [] ∧ φ v = false
  all_goals
    refine J_postView (Q := fun _ A' => A'.L = [] ∧ A'.n ≤ n ∧ (∃ ws, A'.vs = vs ++ ws) ∧
      (e = true → A'.e = true) ∧ (∀ v, A'.h v → v = [] ∨ φ v = true) ∧
      (A'.n < n ∨ ∀ v, A'.h v → h v)) ?_ ?_
  case neg.refine_2 =>
    rintro a A' ⟨h1, h2, h3, h4, h5, h6⟩
    exact .inl ⟨h1, h2, h3, h4, h5, fun h7 => absurd h7 hh⟩
  case pos.refine_2 =>
    rintro a A' ⟨h1, h2, h3, h4, h5, h6⟩
    rcases h6 with h6 | h6
    · exact .inl ⟨h1, h2, h3, h4, h5, fun _ => h6⟩
    · refine .inr (fun v hv => ?_)
      have h7 := hh v (h6 v hv)
      rcases h5 v hv with h8 | h8
      · exact h7.1 h8
      · rw [h7.2] at h8; cases h8
  all_goals
    refine J_loopTokens (fun _ A => A.L = [] ∧ A.n ≤ n ∧ (∃ ws, A.vs = vs ++ ws) ∧
      (e = true → A.e = true) ∧ (A.n < n ∨ ∀ v, A.h v → h v)) ?_
      (fun n0 hn => ⟨rfl, hn, ⟨[], by simp⟩, id, .inr (fun _ h => h)⟩)
    rintro a ⟨L', vs', n', h', e'⟩ ⟨h1, h2, ⟨ws, h3⟩, h4, h5⟩
    dsimp only at h1 h2 h3 h4 h5
    subst h1
    unfold parseManyStep
    refine b_getPos (fun n0 hn0 => b_peek (Peek.at' _) (fun b => ?_))
    cases b with
    | true =>
      simp only [if_true]
      refine b_bump ?_ (fun t n1 hn1 _ _ => J_pure ?_)
      · rintro v ⟨hv, _⟩ rfl; simp [isAt] at hv
      · exact ⟨⟨rfl, by dsimp only; omega, ⟨ws, h3⟩, h4, .inl (by dsimp only; omega)⟩,
          by dsimp only; omega⟩
    | false =>
      simp only [Bool.false_eq_true, if_false]
      refine b_peek Peek.atEnd (fun b => ?_)
      cases b with
      | true =>
        refine J_pure ⟨rfl, by dsimp only; omega, ⟨ws, h3⟩, h4, ?_, ?_⟩
        · rintro v ⟨hv, _⟩
          exact .inl (by simpa using hv)
        · rcases h5 with h5 | h5
          · exact .inl (by dsimp only; omega)
          · exact .inr (fun v hv => h5 v hv.2.2)
      | false =>
        simp only [Bool.false_eq_true, if_false]
        refine J_assoc (b_peek he (fun b => ?_))
        cases b with
        | true =>
          refine J_pure ⟨rfl, by dsimp only; omega, ⟨ws, h3⟩, h4, ?_, ?_⟩
          · rintro v ⟨hv, _⟩
            exact .inr hv
          · rcases h5 with h5 | h5
            · exact .inl (by dsimp only; omega)
            · exact .inr (fun v hv => h5 v hv.2.2.2)
        | false =>
          refine J_pre (h' := fun v => v ≠ [] ∧ φ v = false) ?_ ?_
          · refine J_bind (J_pure (Q := fun (r : Bool × Unit) A => r = (false, ()) ∧
              A = ⟨[], vs', n0, fun v => v ≠ [] ∧ φ v = false, e'⟩) ⟨rfl, rfl⟩) ?_
            rintro _ _ ⟨rfl, rfl⟩
            simp only [Bool.false_eq_true, if_false]
            refine J_bind ((hc n0 (by omega)).at vs') (fun a2 A2 ⟨k1, k2, ⟨ws2, k3, k5⟩, k4⟩ => ?_)
            obtain ⟨L2, vs2, n2, h2', e2⟩ := A2
            dsimp only at k1 k2 k3 k4 k5
            subst k1
            refine b_getPos (fun n3 hn3 => J_pure ?_)
            have : (n3 != n0) = true := by
              have : n3 ≠ n0 := by omega
              simpa using this
            rw [this]
            exact ⟨⟨rfl, by dsimp only; omega, ⟨ws ++ ws2, by dsimp only; rw [k3, h3]; simp⟩,
              fun x => k4 (h4 x), .inl (by dsimp only; omega)⟩, by dsimp only; omega⟩
          · rintro v ⟨hv, hv2, _⟩
            refine ⟨?_, hv⟩
            rintro rfl
            simp at hv2

/-- `parse_many`. -/
theorem ext_parseMany {early : P Bool} {child : P Unit} {φ : List Token → Bool} (he : Peek early φ)
    (hc : ∀ n', n' ≤ n → Ext toks n' (fun v => v ≠ [] ∧ φ v = false) child RU) :
    Ext toks n h (parseMany early child) RU := by
  intro e
  unfold parseMany
  refine J_post (J_many (φ := fun _ v => (φ v, ())) (fun _ _ => True)
    (fun _ => he.bind (fun _ => .pure _)) (fun _ _ _ _ => trivial) ?_ trivial)
    (fun a A h => h)
  intro a a' vs' n' e hn _
  refine J_post (J_pre ((hc n' hn).at vs') ?_) (fun a A' ⟨h1, h2, h3, h4⟩ => ⟨h1, h2, trivial, h4⟩)
  rintro v ⟨h1, h2⟩
  exact ⟨h1, by simpa using h2⟩

/-- `parse_many` with captured variables about which nothing is needed. -/
theorem ext_parseManyWith {σ : Type} {early : σ → P (Bool × σ)} {child : σ → P σ} {a : σ}
    {φ : σ → List Token → Bool × σ} (he : ∀ a, Peek (early a) (φ a))
    (hc : ∀ a a' n', n' ≤ n →
      Ext toks n' (fun v => v ≠ [] ∧ φ a v = (false, a')) (child a') RU) :
    Ext toks n h (parseManyWith early child a) RU := by
  intro e
  refine J_post (J_many (φ := φ) (fun _ _ => True) he (fun _ _ _ _ => trivial) ?_ trivial)
    (fun a A h => h)
  intro a a' vs' n' e hn _
  exact J_post ((hc a a' n' hn).at vs') (fun a A' ⟨h1, h2, h3, h4⟩ => ⟨h1, h2, trivial, h4⟩)

/-! ## Recovery -/

theorem isAtSet_cons {set : List SyntaxKind} {t : Token} {ts : List Token} :
    isAtSet set (t :: ts) = set.contains t.kind := rfl

/-- `recover_expect` after an error: consumes a token unless it stands at a recovery token or the
end. -/
theorem J_recoverExpect {expected recovery : List SyntaxKind} :
    J toks ⟨[], vs, n, h, true⟩ (recoverExpect expected recovery)
      (fun _ A' => A'.L = [] ∧ A'.n ≤ n ∧ (∃ ws, A'.vs = vs ++ ws) ∧ A'.e = true ∧
        (A'.n < n ∨ ∀ v, A'.h v → h v ∧
          (v = [] ∨ isAtSet recovery v = true ∨ isAtSet generalRecoverySet v = true))) := by
  unfold recoverExpect
  refine b_peek (Peek.atEnd.or ((Peek.atSet _).or (Peek.atSet _))) (fun b => ?_)
  cases b with
  | true =>
    refine J_pure ⟨rfl, Nat.le_refl _, ⟨[], by simp⟩, rfl, .inr ?_⟩
    rintro v ⟨h1, h2⟩
    refine ⟨h2, ?_⟩
    simp only [Bool.or_eq_true, List.isEmpty_iff] at h1
    exact h1
  | false =>
    simp only [Bool.false_eq_true, if_false]
    refine b_start (fun m => ?_)
    refine J_loopTokens
      (fun _ A => A.L = [(m, [])] ∧ A.n ≤ n ∧ A.vs = vs ∧ A.e = true ∧ ∀ v, A.h v → v ≠ []) ?_ ?_
    · rintro a ⟨L', vs', n', h', e'⟩ ⟨h1, h2, h3, h4, h5⟩
      dsimp only at h1 h2 h3 h4 h5
      subst h1 h3 h4
      unfold recoverStep
      refine b_bump h5 (fun t n1 hn1 _ _ => ?_)
      refine b_peek ((Peek.pure _).and (Peek.atSet expected)) (fun b => ?_)
      cases b with
      | true =>
        simp only [if_true]
        refine b_complete_nil (fun _ => rfl) (b_bump ?_ (fun t n2 hn2 _ _ => J_pure ?_))
        · rintro v ⟨hv, _⟩ rfl; simp [isAtSet] at hv
        · exact ⟨rfl, by dsimp only; omega, ⟨_, rfl⟩, rfl, .inl (by dsimp only; omega)⟩
      | false =>
        simp only [Bool.false_eq_true, if_false]
        refine b_peek (Peek.atEnd.or ((Peek.atSet _).or (Peek.atSet _))) (fun b => ?_)
        cases b with
        | true =>
          simp only [if_true]
          refine b_complete_nil (fun _ => rfl) (J_pure ?_)
          exact ⟨rfl, by dsimp only; omega, ⟨_, rfl⟩, rfl, .inl (by dsimp only; omega)⟩
        | false =>
          simp only [Bool.false_eq_true, if_false]
          refine J_pure ⟨⟨rfl, by dsimp only; omega, rfl, rfl, ?_⟩, by dsimp only; omega⟩
          rintro v ⟨hv, _⟩ rfl
          simp at hv
    · intro n0 hn
      refine ⟨rfl, hn, rfl, rfl, ?_⟩
      rintro v ⟨hv, _⟩ rfl
      simp at hv

theorem b_recoverExpect {expected recovery : List SyntaxKind} {g : Option Token → P β}
    {Q : β → AS → Prop} {m : Nat} {ts : List Nat}
    (hg : ∀ a ws n', n' ≤ n → J toks ⟨(m, ts ++ ws) :: L, vs, n', any, true⟩ (g a) Q) :
    J toks ⟨(m, ts) :: L, vs, n, h, true⟩ (recoverExpect expected recovery >>= g) Q :=
  b_call (R := fun _ A => ∃ ws, A.vs = ts ++ ws)
    (J_post J_recoverExpect (fun _ A ⟨h1, h2, h3, h4, _⟩ => ⟨h1, h2, h3, fun _ => h4⟩))
    (fun a ts' n' h' e' hn ⟨ws, h1⟩ => by dsimp only at h1; subst h1; exact hg a ws n' hn)

theorem b_recoverExpect_nil {expected recovery : List SyntaxKind} {g : Option Token → P β}
    {Q : β → AS → Prop}
    (hg : ∀ a ws n', n' ≤ n → J toks ⟨[], vs ++ ws, n', any, true⟩ (g a) Q) :
    J toks ⟨[], vs, n, h, true⟩ (recoverExpect expected recovery >>= g) Q :=
  b_call_nil (R := fun _ A => ∃ ws, A.vs = vs ++ ws)
    (J_post J_recoverExpect (fun _ A ⟨h1, h2, h3, h4, _⟩ => ⟨h1, h2, h3, fun _ => h4⟩))
    (fun a ts' n' h' e' hn ⟨ws, h1⟩ => by dsimp only at h1; subst h1; exact hg a ws n' hn)

theorem ext_errorRecover {expected : String} {recovery : List SyntaxKind} :
    Ext toks n h (errorRecover expected recovery) RU := by
  intro e
  unfold errorRecover recover
  refine b_addError (b_recoverExpect_nil (fun a ws n' hn => J_pure ?_))
  exact ⟨rfl, hn, trivial, by simp⟩

theorem ext_addError {expected : String} : Ext toks n h (addError expected) RU := by
  intro e
  refine J_last (b_addError (J_pure ?_))
  exact ⟨rfl, Nat.le_refl _, trivial, by simp⟩

theorem b_displayKind {k : SyntaxKind} {g : String → P β} {Q : β → AS → Prop} {A : AS}
    (hk : k.display?.isSome = true) (hg : ∀ s, J toks A (g s) Q) :
    J toks A (displayKind k >>= g) Q := by
  unfold displayKind
  cases hd : k.display? with
  | none => simp [hd] at hk
  | some d => exact hg d

theorem b_displayKinds {ks : List SyntaxKind} {g : List String → P β} {Q : β → AS → Prop} {A : AS}
    (hk : ∀ k ∈ ks, k.display?.isSome = true) (hg : ∀ s, J toks A (g s) Q) :
    J toks A (displayKinds ks >>= g) Q := by
  induction ks generalizing g with
  | nil => exact hg []
  | cons k ks ih =>
    unfold displayKinds
    refine J_assoc (b_displayKind (hk k (by simp)) (fun s => ?_))
    exact J_assoc (ih (fun k hk' => hk k (by simp [hk'])) (fun ss => hg _))

theorem ext_expect {k : SyntaxKind} {recovery : List SyntaxKind} (hk : k.display?.isSome = true) :
    Ext toks n h (expect k recovery) RU := by
  intro e
  unfold expect
  refine b_peek (Peek.at' k) (fun b => ?_)
  cases b with
  | true =>
    simp only [if_true]
    refine b_bump ?_ (fun t n1 hn1 _ _ => J_pure ⟨rfl, by dsimp only; omega, trivial, id⟩)
    rintro v ⟨hv, _⟩ rfl; simp [isAt] at hv
  | false =>
    simp only [Bool.false_eq_true, if_false]
    refine b_displayKind hk (fun s => b_addError (J_last (b_recoverExpect_nil
      (fun a ws n' hn => J_pure ?_))))
    exact ⟨rfl, hn, trivial, by simp⟩

theorem ext_expectAny {ks : List SyntaxKind} {recovery : List SyntaxKind}
    (hk : ∀ k ∈ ks, k.display?.isSome = true) : Ext toks n h (expectAny ks recovery) RU := by
  intro e
  unfold expectAny
  refine b_peek (Peek.atSet ks) (fun b => ?_)
  cases b with
  | true =>
    simp only [if_true]
    refine b_bump ?_ (fun t n1 hn1 _ _ => J_pure ⟨rfl, by dsimp only; omega, trivial, id⟩)
    rintro v ⟨hv, _⟩ rfl; simp [isAtSet] at hv
  | false =>
    simp only [Bool.false_eq_true, if_false]
    refine b_displayKinds hk (fun s => b_addError (J_last (b_recoverExpect_nil
      (fun a ws n' hn => J_pure ?_))))
    exact ⟨rfl, hn, trivial, by simp⟩

theorem ext_discard {f : P α} {R : α → AS → Prop} (hf : Ext toks n h f R) :
    Ext toks n h (discard' f) RU := by
  intro e
  exact b_ext_nil hf (fun a ws n' h' e' hn _ => J_pure ⟨rfl, hn, trivial, id⟩)

theorem ext_expect_ {k : SyntaxKind} {recovery : List SyntaxKind} (hk : k.display?.isSome = true) :
    Ext toks n h (expect_ k recovery) RU := ext_discard (ext_expect hk)

theorem ext_expectAny_ {ks : List SyntaxKind} {recovery : List SyntaxKind}
    (hk : ∀ k ∈ ks, k.display?.isSome = true) : Ext toks n h (expectAny_ ks recovery) RU :=
  ext_discard (ext_expectAny hk)

theorem ext_ifNone {f : P (Option α)} {t : P Unit} {R : Option α → AS → Prop} (hf : Ext toks n h f R)
    (ht : ∀ n', n' ≤ n → Ext toks n' any t RU) : Ext toks n h (ifNone f t) RU := by
  intro e
  refine J_last (b_ifNone (b_ext_nil hf (fun a ws n' h' e' hn _ => ?_)))
  cases a with
  | some _ => exact J_pure ⟨rfl, hn, trivial, id⟩
  | none =>
    refine b_ext_nil (ht n' hn) (fun a ws n'' h' e' hn' _ => J_pure ⟨rfl, ?_, trivial, id⟩)
    exact Nat.le_trans hn' hn

theorem ext_orRecover {f : P (Option CompletedMarker)} {expected : String}
    {recovery : List SyntaxKind} {R : Option CompletedMarker → AS → Prop} (hf : Ext toks n h f R) :
    Ext toks n h (orRecover f expected recovery) RU :=
  ext_ifNone hf (fun _ _ => ext_errorRecover)

theorem ext_whenP {c : P Bool} {t : P Unit} {φ : List Token → Bool} (hc : Peek c φ)
    (ht : Ext toks n (fun v => φ v = true ∧ h v) t RU) : Ext toks n h (whenP c t) RU := by
  intro e
  unfold whenP
  refine J_last (b_ifP hc (b_ext_nil ht (fun a ws n' h' e' hn _ => ?_)) ?_)
  · exact J_pure ⟨rfl, hn, trivial, id⟩
  · exact J_pure ⟨rfl, Nat.le_refl _, trivial, id⟩

theorem ext_ifP {c : P Bool} {t f : P α} {φ : List Token → Bool} {R : α → AS → Prop} (hc : Peek c φ)
    (ht : Ext toks n (fun v => φ v = true ∧ h v) t R)
    (hf : Ext toks n (fun v => φ v = false ∧ h v) f R) : Ext toks n h (ifP c t f) R := by
  intro e
  refine J_last (b_ifP hc ?_ ?_)
  · rw [bind_pure_P]; exact ht e
  · rw [bind_pure_P]; exact hf e

theorem ext_bump_ {site : Site} (hne : ∀ v, h v → v = [] → Allowed toks (.bumpAtEnd site)) :
    Ext toks n h (bump_ site) RU := by
  intro e
  unfold bump_ discard' bump
  refine b_bumpGen (by simp) hne (fun t n' hn _ _ => J_pure ⟨rfl, ?_, trivial, id⟩)
  dsimp only; omega

theorem ext_pure {a : α} : Ext toks n h (pure a) RU :=
  fun _ => J_pure ⟨rfl, Nat.le_refl _, trivial, id⟩

theorem ext_optionalToken {k : SyntaxKind} : Ext toks n h (optionalToken k) RU :=
  ext_whenP (Peek.at' k) (ext_bump_ (by rintro v ⟨hv, _⟩ rfl; simp [isAt] at hv))

theorem ext_commaOrEnd {c : P Bool} {φ : List Token → Bool} (hc : Peek c φ) :
    Ext toks n h (commaOrEnd c) RU :=
  ext_ifP (Peek.at' _) (ext_bump_ (by rintro v ⟨hv, _⟩ rfl; simp [isAt] at hv))
    (ext_whenP hc.not ext_addError)

end Ludtwig
