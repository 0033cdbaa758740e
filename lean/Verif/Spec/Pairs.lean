import Mathlib.Data.List.Perm.Basic

/-!
# Specification: handing out a stock of items

A stock is a list. `serve` says which item every request of a history gets and what is left, when the
stock runs dry and is refilled with the given batches.  It never copies an item, see `serve_perm`.
-/

namespace Verif

/-- A history of uses of a stock. -/
inductive Hist where
  | done
  /-- one item is requested -/
  | take (rest : Hist)
  /-- at least `num` items shall be in stock -/
  | ensure (num : Nat) (rest : Hist)
  /-- `num` items are moved to a child, which has its own history -/
  | fork (num : Nat) (child rest : Hist)

variable {α : Type}

/-- Why a history cannot be served. -/
inductive Unserved where
  /-- a fork asks for more items than there are -/
  | overdrawn
  /-- the batches do not suffice -/
  | dry

/-- `serve h stock batches`: the items handed out, the items left over (in all stocks), the batches not
needed. -/
def serve : Hist → List α → List (List α) → Except Unserved (List α × List α × List (List α))
  | .done, stock, batches => .ok ([], stock, batches)
  | .take rest, stock, batches =>
    match stock.getLast?, batches with
    | some x, _ => do
      let (out, left, bs) ← serve rest stock.dropLast batches
      .ok (x :: out, left, bs)
    | none, b :: bs =>
      match b.getLast? with
      | some x => do
        let (out, left, bs) ← serve rest b.dropLast bs
        .ok (x :: out, left, bs)
      | none => .error .dry
    | none, [] => .error .dry
  | .ensure num rest, stock, batches =>
    if num ≤ stock.length then serve rest stock batches
    else
      match batches with
      | b :: bs => if num ≤ (stock ++ b).length then serve rest (stock ++ b) bs else .error .dry
      | [] => .error .dry
  | .fork num child rest, stock, batches =>
    if num ≤ stock.length then do
      let (out₁, left₁, bs) ← serve child (stock.take num) batches
      let (out₂, left₂, bs) ← serve rest (stock.drop num) bs
      .ok (out₁ ++ out₂, left₁ ++ left₂, bs)
    else .error .overdrawn

theorem bind_ok_iff {ε β γ : Type} {x : Except ε β} {f : β → Except ε γ} {c : γ} :
    (x >>= f) = .ok c ↔ ∃ b, x = .ok b ∧ f b = .ok c := by
  cases x with
  | error e => simp [bind, Except.bind]
  | ok b => simp [bind, Except.bind]

/-- Every item of the stock and of the batches is handed out exactly once or left over, never both. -/
theorem serve_perm {h : Hist} {stock : List α} {batches : List (List α)} {out left : List α}
    {bs : List (List α)} (hs : serve h stock batches = .ok (out, left, bs)) :
    (out ++ left ++ bs.flatten).Perm (stock ++ batches.flatten) := by
  induction h generalizing stock batches out left bs with
  | done => simp only [serve, Except.ok.injEq, Prod.mk.injEq] at hs; obtain ⟨rfl, rfl, rfl⟩ := hs; simp
  | take rest ih =>
    rw [serve.eq_def] at hs
    simp only at hs
    split at hs
    · rename_i x hx
      simp only [bind_ok_iff, Except.ok.injEq, Prod.mk.injEq] at hs
      obtain ⟨⟨o, l, b⟩, h1, rfl, rfl, rfl⟩ := hs
      have := ih h1
      have e : stock = stock.dropLast ++ [x] := by
        rw [List.getLast?_eq_some_iff] at hx
        obtain ⟨ys, rfl⟩ := hx
        simp
      rw [e]
      simp only [List.cons_append, List.append_assoc, List.nil_append]
      refine (List.Perm.cons x ?_).trans List.perm_middle.symm
      simpa using this
    · rename_i b bs' hx
      split at hs
      · rename_i x hb
        simp only [bind_ok_iff, Except.ok.injEq, Prod.mk.injEq] at hs
        obtain ⟨⟨o, l, b'⟩, h1, rfl, rfl, rfl⟩ := hs
        have := ih h1
        obtain rfl : stock = [] := by simpa using hx
        have e : b = b.dropLast ++ [x] := by
          rw [List.getLast?_eq_some_iff] at hb
          obtain ⟨ys, rfl⟩ := hb
          simp
        rw [List.nil_append, List.flatten_cons, e]
        simp only [List.cons_append, List.append_assoc, List.nil_append]
        refine (List.Perm.cons x ?_).trans List.perm_middle.symm
        simpa using this
      · simp at hs
    · simp at hs
  | ensure num rest ih =>
    rw [serve.eq_def] at hs
    simp only at hs
    split at hs
    · exact ih hs
    · split at hs
      · split at hs
        · have := ih hs
          simpa [List.append_assoc] using this
        · simp at hs
      · simp at hs
  | fork num child rest ih₁ ih₂ =>
    rw [serve.eq_def] at hs
    simp only at hs
    split at hs
    · simp only [bind_ok_iff, Except.ok.injEq, Prod.mk.injEq] at hs
      obtain ⟨⟨o₁, l₁, b₁⟩, h1, ⟨o₂, l₂, b₂⟩, h2, rfl, rfl, rfl⟩ := hs
      have p1 := ih₁ h1
      have p2 := ih₂ h2
      have e : stock ++ batches.flatten = stock.take num ++ (stock.drop num ++ batches.flatten) := by
        rw [← List.append_assoc, List.take_append_drop]
      rw [e]
      have q1 : (o₁ ++ o₂ ++ (l₁ ++ l₂) ++ b₂.flatten).Perm
          ((o₁ ++ l₁) ++ (o₂ ++ l₂ ++ b₂.flatten)) := by
        simp only [List.append_assoc]
        refine List.Perm.append_left _ ?_
        rw [← List.append_assoc, ← List.append_assoc l₁]
        exact List.Perm.append_right _ List.perm_append_comm
      refine q1.trans ((List.Perm.append_left _ p2).trans ?_)
      have q2 : (o₁ ++ l₁ ++ (stock.drop num ++ b₁.flatten)).Perm
          (stock.drop num ++ (o₁ ++ l₁ ++ b₁.flatten)) := by
        rw [← List.append_assoc, ← List.append_assoc]
        exact List.Perm.append_right _ List.perm_append_comm
      refine q2.trans ((List.Perm.append_left _ p1).trans ?_)
      rw [← List.append_assoc, ← List.append_assoc]
      exact List.Perm.append_right _ List.perm_append_comm
    · simp at hs

end Verif
