import Verif.Model.Watch

/-!
# Utility functions as plain values

What a sequence of statements on `utility_ca` and `utility_co` should mean: every attribute is a plain list of terms, changed by
the statements that name it and by nothing else.
-/

namespace Larch.Watch

variable {τ : Type}

/-- The terms per model, and per model and alternative. -/
structure Val (τ : Type) where
  ca : Nat → List τ
  co : Nat → Nat → List τ

/-- The list of terms after an in-place operation (unchanged when the operation raises). -/
def after (e : Edit τ) (l : List τ) : List τ := (e.terms l).getD l

/-- The meaning of a statement.  (Statements through objects held otherwise are not used with it.) -/
def Val.step (v : Val τ) : Stmt τ → Val τ
  | .setCa m ts => { v with ca := upd v.ca m ts }
  | .delCa m => { v with ca := upd v.ca m [] }
  | .edit (.ca m) e => { v with ca := upd v.ca m (after e (v.ca m)) }
  | .edit (.co m k) e => { v with co := upd v.co m (upd (v.co m) k (after e (v.co m k))) }
  | .edit (.obj _) _ => v
  | .setCo m k (.fresh ts) => { v with co := upd v.co m (upd (v.co m) k ts) }
  | .setCo _ _ (.path _) => v
  | .delCo m k => { v with co := upd v.co m (upd (v.co m) k []) }
  | .setCoAll m kvs => { v with co := upd v.co m (kvs.foldl (fun f e => upd f e.1 e.2) (fun _ => [])) }
  | .new _ => v
  | .eval _ => v

def Val.run (v : Val τ) (l : List (Stmt τ)) : Val τ := l.foldl Val.step v

/-- Statements that name functions through model attributes, assign expressions, and do not use `remove_data`/`remove_param`;
the models are numbered below `n`. -/
def Plain (n : Nat) : Stmt τ → Prop
  | .setCa m _ => m < n
  | .delCa m => m < n
  | .edit (.ca m) e => m < n ∧ ∀ gone, e ≠ .remove gone
  | .edit (.co m _) e => m < n ∧ ∀ gone, e ≠ .remove gone
  | .edit (.obj _) _ => False
  | .setCo m _ (.fresh _) => m < n
  | .setCo _ _ (.path _) => False
  | .delCo m _ => m < n
  | .setCoAll m _ => m < n
  | .new _ => True
  | .eval m => m < n

end Larch.Watch
