/-!
# Programs of one party

Every MPC function in the repository is the code of *one* party that computes locally and calls
`Network::send` and `Network::recv`.  `Prog` is the type of such programs.

Models:
* `/repo/mpc-net/src/lib.rs:34-63` (trait `Network`: `send`, `recv`).
* the early return of Rust's `?` operator and panics (`fail`).

Simplifications: `flush` and the connection statistics have no effect on results and are left out.
A panic and a returned `Err` are both `fail`.
-/

namespace Verif

/-- Program of one party. `ι` names the parties, `M` is the type of messages, `E` the type of
errors, `α` the type of the result.

Models the calls available through `/repo/mpc-net/src/lib.rs:34-63`. -/
inductive Prog (ι M E α : Type) : Type where
  /-- the function returns `Ok(a)` -/
  | ret (a : α)
  /-- the function returns `Err(e)` or panics -/
  | fail (e : E)
  /-- `net.send(to, m)?` followed by `k` -/
  | send (to : ι) (m : M) (k : Prog ι M E α)
  /-- `let m = net.recv(frm)?` followed by `k m` -/
  | recv (frm : ι) (k : M → Prog ι M E α)

namespace Prog

variable {ι M E α β γ : Type}

/-- Sequential composition with early return on errors (Rust `let x = p?; k(x)`). -/
def bind : Prog ι M E α → (α → Prog ι M E β) → Prog ι M E β
  | ret a, f => f a
  | fail e, _ => fail e
  | send t m k, f => send t m (k.bind f)
  | recv s k, f => recv s (fun m => (k m).bind f)

instance : Monad (Prog ι M E) where
  pure := ret
  bind := bind

@[simp] theorem pure_eq (a : α) : (pure a : Prog ι M E α) = ret a := rfl
@[simp] theorem bind_eq (p : Prog ι M E α) (f : α → Prog ι M E β) : p >>= f = p.bind f := rfl
@[simp] theorem ret_bind (a : α) (f : α → Prog ι M E β) : (ret a).bind f = f a := rfl
@[simp] theorem fail_bind (e : E) (f : α → Prog ι M E β) : (fail e).bind f = fail e := rfl
@[simp] theorem send_bind (t : ι) (m : M) (k : Prog ι M E α) (f : α → Prog ι M E β) :
    (send t m k).bind f = send t m (k.bind f) := rfl
@[simp] theorem recv_bind (s : ι) (k : M → Prog ι M E α) (f : α → Prog ι M E β) :
    (recv s k).bind f = recv s (fun m => (k m).bind f) := rfl

@[simp] theorem bind_ret (p : Prog ι M E α) : p.bind ret = p := by
  induction p with
  | ret a => rfl
  | fail e => rfl
  | send t m k ih => simp [ih]
  | recv s k ih => simp [ih]

theorem bind_assoc (p : Prog ι M E α) (f : α → Prog ι M E β) (g : β → Prog ι M E γ) :
    (p.bind f).bind g = p.bind (fun a => (f a).bind g) := by
  induction p with
  | ret a => rfl
  | fail e => rfl
  | send t m k ih => simp [ih]
  | recv s k ih => simp [ih]

instance : LawfulMonad (Prog ι M E) := LawfulMonad.mk'
  (id_map := fun x => by
    show Prog.bind x (fun a => ret (id a)) = x
    exact bind_ret x)
  (pure_bind := fun _ _ => rfl)
  (bind_assoc := fun x f g => bind_assoc x f g)

end Prog

/-- What a finished party returned: `Ok` or `Err`. -/
def Prog.ofExcept {ι M E α : Type} : Except E α → Prog ι M E α
  | .ok a => .ret a
  | .error e => .fail e

end Verif
