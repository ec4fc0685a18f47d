import Verif.Parser.Kind

/-!
# C45: the numbering of the kinds
-/

namespace Ludtwig

namespace SyntaxKind

theorem mem_all (k : SyntaxKind) : all[k.toRaw]? = some k := by
  cases k <;> rfl

/-- C45: a kind is found again by its number (`kind_from_raw (kind_to_raw k) = k`); in particular the
guard accepts it. -/
theorem C45_round_trip (k : SyntaxKind) : fromRaw (toRaw k) = some k := by
  have h : k.toRaw ≤ toRaw .ROOT := by cases k <;> decide
  rw [fromRaw, if_pos h, mem_all]

/-- C45: every number that the guard accepts is the number of exactly one kind, so that the
unchecked conversion yields a valid kind; all other numbers are refused by the guard. -/
theorem C45_guard_exact (n : Nat) :
    (n ≤ toRaw .ROOT ↔ ∃ k, toRaw k = n) ∧ (∀ k, fromRaw n = some k ↔ toRaw k = n) := by
  have hlen : all.length = toRaw .ROOT + 1 := by decide +kernel
  have hall : ∀ m, m < all.length → ∃ k, all[m]? = some k ∧ toRaw k = m := by
    have hz : ∀ p ∈ all.zipIdx, toRaw p.1 = p.2 := by decide +kernel
    intro m hm
    refine ⟨all[m], List.getElem?_eq_getElem hm, hz (all[m], m) ?_⟩
    rw [List.mem_zipIdx_iff_getElem?]
    exact List.getElem?_eq_getElem hm
  have hle : ∀ k : SyntaxKind, k.toRaw ≤ toRaw .ROOT := by intro k; cases k <;> decide
  refine ⟨⟨fun h => ?_, ?_⟩, fun k => ⟨fun h => ?_, ?_⟩⟩
  · obtain ⟨k, _, hk⟩ := hall n (by omega)
    exact ⟨k, hk⟩
  · rintro ⟨k, rfl⟩; exact hle k
  · unfold fromRaw at h
    split at h
    · obtain ⟨k', h1, h2⟩ := hall n (by omega)
      rw [h1] at h
      cases h
      exact h2
    · cases h
  · rintro rfl; exact C45_round_trip k

example : fromRaw 65535 = none ∧ fromRaw 2 = some .TK_WORD ∧ toRaw .ROOT < 65536 := by decide +kernel

end SyntaxKind

end Ludtwig
