import Verif.CircomVm.Vm

/-!
# The data structures of the VM are natural in the values they contain
-/

namespace Verif.CircomVm

variable {V W : Type}

def IfCtx.map (f : V → W) : IfCtx V → IfCtx W
  | .pub => .pub
  | .shared l a c => .shared (f l) (f a) (f c)

def FunCtx.map (f : V → W) (c : FunCtx V) : FunCtx W :=
  ⟨c.ip, c.returnVals, c.vars.map f, c.body, c.sharedRet.map (Prod.map f (List.map f))⟩

/-- The state with other values. -/
def St.map (f : V → W) (s : St V) : St W where
  ip := s.ip
  body := s.body
  vars := s.vars.map f
  sharedRet := s.sharedRet.map (Prod.map f (List.map f))
  offset := s.offset
  fields := s.fields.map (List.map f)
  idxs := s.idxs
  ifs := s.ifs.map (IfCtx.map f)
  funs := s.funs.map (FunCtx.map f)
  returnVals := s.returnVals
  subs := s.subs
  signals := s.signals.map f

theorem readSlice_map (f : V → W) (l : List V) (start n : Nat) :
    readSlice (l.map f) start n = (readSlice l start n).map (List.map f) := by
  unfold readSlice
  split <;> rename_i h <;> simp at h
  · rw [if_pos h]; simp
  · rw [if_neg (by omega)]; rfl

theorem writeSlice_map (f : V → W) (l : List V) (start : Nat) (xs : List V) :
    writeSlice (l.map f) start (xs.map f) = (writeSlice l start xs).map (List.map f) := by
  unfold writeSlice
  split <;> rename_i h <;> simp at h
  · rw [if_pos h]; simp
  · rw [if_neg (by omega)]; rfl

theorem sharedCond_map (f : V → W) (l : List (IfCtx V)) :
    sharedCond (l.map (IfCtx.map f)) = (sharedCond l).map f := by
  induction l with
  | nil => rfl
  | cons x l ih =>
    cases x with
    | pub => exact ih
    | shared => rfl

namespace St

variable (f : V → W) (s : St V)

theorem pop_map : (s.map f).pop = s.pop.map (Prod.map f (St.map f)) := by
  obtain ⟨_, _, _, _, _, fields, _, _, _, _, _, _⟩ := s
  rcases fields with _ | ⟨_ | ⟨v, r⟩, r'⟩ <;> rfl

theorem popN_map (n : Nat) : (s.map f).popN n = (s.popN n).map (Prod.map (List.map f) (St.map f)) := by
  obtain ⟨_, _, _, _, _, fields, _, _, _, _, _, _⟩ := s
  rcases fields with _ | ⟨r, r'⟩
  · rfl
  · simp only [popN, St.map, List.map_cons, List.length_map]
    split
    · simp [St.map, Prod.map]
    · rfl

theorem pushAll_map (xs : List V) : (s.map f).pushAll (xs.map f) = (s.pushAll xs).map (St.map f) := by
  obtain ⟨_, _, _, _, _, fields, _, _, _, _, _, _⟩ := s
  rcases fields with _ | ⟨r, r'⟩
  · cases xs <;> rfl
  · simp [pushAll, St.map]

theorem push_map (x : V) : (s.map f).push (f x) = (s.push x).map (St.map f) := pushAll_map f s [x]

theorem popIdx_map : (s.map f).popIdx = s.popIdx.map (Prod.map id (St.map f)) := by
  obtain ⟨_, _, _, _, _, _, idxs, _, _, _, _, _⟩ := s
  rcases idxs with _ | ⟨_ | ⟨v, r⟩, r'⟩ <;> rfl

theorem pushIdx_map (x : Nat) : (s.map f).pushIdx x = (s.pushIdx x).map (St.map f) := by
  obtain ⟨_, _, _, _, _, _, idxs, _, _, _, _, _⟩ := s
  rcases idxs with _ | ⟨r, r'⟩ <;> rfl

theorem next_map : (s.map f).next = s.next.map f := rfl

theorem leave_map : (s.map f).leave = s.leave.map (St.map f) := by
  obtain ⟨_, _, _, _, _, _, _, _, funs, _, _, _⟩ := s
  rcases funs with _ | ⟨r, r'⟩ <;> rfl

end St

theorem callArgs_map (f : V → W) (n : Nat) (s : St V) : callArgs n (s.map f) = (callArgs n s).map (List.map f) := by
  obtain ⟨_, _, _, _, _, fields, _, _, _, _, _, _⟩ := s
  rcases fields with _ | ⟨r, r'⟩
  · rfl
  · simp only [callArgs, St.map, List.map_cons, List.length_map]
    split
    · simp
    · rfl

theorem returnsLate_map (f : V → W) (s : St V) : returnsLate (s.map f) = returnsLate s := by
  simp [returnsLate, St.map, sharedCond_map]

theorem returnOne_map (f : V → W) (s : St V) : returnOne (s.map f) = (returnOne s).map (St.map f) := by
  obtain ⟨_, _, _, _, _, fields, _, _, _, _, _, _⟩ := s
  rcases fields with _ | ⟨r, r'⟩
  · rfl
  · simp only [returnOne, St.map, List.map_cons]
    rw [← List.map_reverse]
    refine (congrArg (Option.bind · St.leave) (St.pushAll_map f ⟨_, _, _, _, _, r', _, _, _, _, _, _⟩ r.reverse)).trans ?_
    rw [Option.bind_map, Option.map_bind]
    congr 1
    funext s
    exact St.leave_map f s

theorem returnMany_map (f : V → W) (vals : List V) (s : St V) :
    returnMany (vals.map f) (s.map f) = (returnMany vals s).map (St.map f) := by
  obtain ⟨_, _, _, _, _, fields, idxs, _, _, _, _, _⟩ := s
  rcases fields with _ | ⟨r, r'⟩
  · rfl
  · rcases idxs with _ | ⟨q, q'⟩
    · rfl
    · simp only [returnMany, St.map, List.map_cons]
      refine (congrArg (Option.bind · St.leave) (St.pushAll_map f ⟨_, _, _, _, _, r', q', _, _, _, _, _⟩ vals)).trans ?_
      rw [Option.bind_map, Option.map_bind]
      congr 1
      funext s
      exact St.leave_map f s

theorem removeKey_map (f : V → W) (name : String) (l : List (String × V)) :
    removeKey name (l.map (Prod.map id f)) = (removeKey name l).map (Prod.map f (List.map (Prod.map id f))) := by
  induction l with
  | nil => rfl
  | cons x l ih =>
    obtain ⟨k, v⟩ := x
    simp only [List.map_cons, Prod.map_apply, id_eq, removeKey]
    split
    · rfl
    · rw [ih]
      cases removeKey name l <;> rfl

end Verif.CircomVm
