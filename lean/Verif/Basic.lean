/-!
# Shared conventions

* `Str`: Rust `String`/`&str` as the list of its `char`s.
* `Out`: outcome of a Rust call: a value, a returned error, or a panic.
-/

/-- A string as its list of Unicode scalar values. -/
abbrev Str := List Char

/-- Outcome of a call: value, `Err(e)`, or panic.  (`ε` is the error type.) -/
inductive Out (ε α : Type) where
  | ok (a : α)
  | err (e : ε)
  | panic
  deriving DecidableEq, Repr

namespace Out
variable {ε α β : Type}

@[inline] def bind (x : Out ε α) (f : α → Out ε β) : Out ε β :=
  match x with
  | ok a => f a
  | err e => err e
  | panic => panic

instance : Monad (Out ε) where
  pure := ok
  bind := bind

@[simp] theorem pure_eq (a : α) : (pure a : Out ε α) = ok a := rfl
@[simp] theorem bind_ok (a : α) (f : α → Out ε β) : (ok a >>= f) = f a := rfl
@[simp] theorem bind_err (e : ε) (f : α → Out ε β) : ((err e : Out ε α) >>= f) = err e := rfl
@[simp] theorem bind_panic (f : α → Out ε β) : ((panic : Out ε α) >>= f) = panic := rfl
@[simp] theorem map_ok (a : α) (f : α → β) : f <$> (ok a : Out ε α) = ok (f a) := rfl
@[simp] theorem map_err (e : ε) (f : α → β) : f <$> (err e : Out ε α) = err e := rfl
@[simp] theorem map_panic (f : α → β) : f <$> (panic : Out ε α) = panic := rfl

/-- `Option::ok_or(e)?` -/
def ofOption (e : ε) : Option α → Out ε α
  | some a => ok a
  | none => err e

@[simp] theorem ofOption_some (e : ε) (a : α) : ofOption e (some a) = ok a := rfl
@[simp] theorem ofOption_none (e : ε) : ofOption e (none : Option α) = err e := rfl

/-- `Option::unwrap()` -/
def unwrap : Option α → Out ε α
  | some a => ok a
  | none => panic

@[simp] theorem unwrap_some (a : α) : (unwrap (some a) : Out ε α) = ok a := rfl
@[simp] theorem unwrap_none : (unwrap (none : Option α) : Out ε α) = panic := rfl

/-- Run `f` on each element in order, stopping at the first error or panic (a `for` loop or
`collect::<Result<_>>`). -/
def mapM' (f : α → Out ε β) : List α → Out ε (List β)
  | [] => ok []
  | a :: l => do
    let b ← f a
    let bs ← mapM' f l
    ok (b :: bs)

@[simp] theorem mapM'_nil (f : α → Out ε β) : mapM' f [] = ok [] := rfl
theorem mapM'_cons (f : α → Out ε β) (a : α) (l : List α) :
    mapM' f (a :: l) = (f a >>= fun b => mapM' f l >>= fun bs => ok (b :: bs)) := rfl

theorem mapM'_ok {f : α → Out ε β} {g : α → β} {l : List α} (h : ∀ a ∈ l, f a = ok (g a)) :
    mapM' f l = ok (l.map g) := by
  induction l with
  | nil => rfl
  | cons a l ih =>
    rw [mapM'_cons, h a (List.mem_cons_self ..), bind_ok,
      ih (fun b hb => h b (List.mem_cons_of_mem _ hb)), bind_ok, List.map_cons]

def isPanic : Out ε α → Bool
  | panic => true
  | _ => false

def isOk : Out ε α → Bool
  | ok _ => true
  | _ => false

end Out
