/-!
Effectful Go code over a state `σ`: a computation ends with a value, a returned `error`, or a `panic`, and in all
three cases with a state – writes made before the failure are *not* undone by the code itself.  Undoing is done
by the caller: `tx` models the transaction runner of the SDK (baseapp `runTx`: cached store, written back only on
success; panics recovered).
-/
namespace Verif

inductive Res (α : Type) where
  | ok (a : α)
  | err
  | panic
deriving DecidableEq, Repr

namespace Res
def isOk {α : Type} : Res α → Bool
  | ok _ => true
  | _ => false

@[simp] theorem isOk_ok {α : Type} (a : α) : (ok a).isOk = true := rfl
@[simp] theorem isOk_err {α : Type} : (err : Res α).isOk = false := rfl
@[simp] theorem isOk_panic {α : Type} : (panic : Res α).isOk = false := rfl

theorem isOk_iff {α : Type} {r : Res α} : r.isOk = true ↔ ∃ a, r = ok a := by
  cases r <;> simp
end Res

/-- A computation. -/
def M (σ α : Type) : Type := σ → Res α × σ

namespace M
variable {σ α β : Type}

def pure (a : α) : M σ α := fun s => (.ok a, s)

def bind (m : M σ α) (f : α → M σ β) : M σ β := fun s =>
  match m s with
  | (.ok a, s') => f a s'
  | (.err, s') => (.err, s')
  | (.panic, s') => (.panic, s')

instance : Monad (M σ) where
  pure := pure
  bind := bind

/-- `return err` -/
def err : M σ α := fun s => (.err, s)
/-- `panic(...)` -/
def panic : M σ α := fun s => (.panic, s)
def get : M σ σ := fun s => (.ok s, s)
def set (s : σ) : M σ Unit := fun _ => (.ok (), s)
def modify (f : σ → σ) : M σ Unit := fun s => (.ok (), f s)
/-- A partial function whose undefinedness is a panic. -/
def orPanic (o : Option α) : M σ α := match o with | some a => pure a | none => panic
/-- `if cond { return err }` -/
def errIf (c : Bool) : M σ Unit := if c then err else pure ()
def panicIf (c : Bool) : M σ Unit := if c then panic else pure ()
/-- The caller ignores a returned error (but not a panic). -/
def ignoreErr (m : M σ α) : M σ Unit := fun s =>
  match m s with
  | (.ok _, s') => (.ok (), s')
  | (.err, s') => (.ok (), s')
  | (.panic, s') => (.panic, s')
/-- `for _, x := range l { if err := f(x); err != nil { return err } }` -/
def forEach (l : List β) (f : β → M σ Unit) : M σ Unit :=
  match l with
  | [] => pure ()
  | b :: t => bind (f b) (fun _ => forEach t f)

/-- Transaction: effects are kept only on success. -/
def tx (m : M σ α) (s : σ) : σ :=
  match m s with
  | (.ok _, s') => s'
  | _ => s

/-- Did the computation succeed? -/
def succeeds (m : M σ α) (s : σ) : Bool := (m s).1.isOk

@[simp] theorem pure_apply (a : α) (s : σ) : (Pure.pure a : M σ α) s = (.ok a, s) := rfl
@[simp] theorem pure'_apply (a : α) (s : σ) : (M.pure a : M σ α) s = (.ok a, s) := rfl
@[simp] theorem err_apply (s : σ) : (err : M σ α) s = (.err, s) := rfl
@[simp] theorem panic_apply (s : σ) : (panic : M σ α) s = (.panic, s) := rfl
@[simp] theorem get_apply (s : σ) : (get : M σ σ) s = (.ok s, s) := rfl
@[simp] theorem set_apply (s t : σ) : (set t : M σ Unit) s = (.ok (), t) := rfl
@[simp] theorem modify_apply (f : σ → σ) (s : σ) : modify f s = (.ok (), f s) := rfl

theorem bind_apply (m : M σ α) (f : α → M σ β) (s : σ) :
    (m >>= f) s = match m s with
      | (.ok a, s') => f a s'
      | (.err, s') => (.err, s')
      | (.panic, s') => (.panic, s') := rfl

theorem bind_ok {m : M σ α} {f : α → M σ β} {s s' : σ} {a : α} (h : m s = (.ok a, s')) :
    (m >>= f) s = f a s' := by rw [bind_apply, h]
theorem bind_err {m : M σ α} {f : α → M σ β} {s s' : σ} (h : m s = (.err, s')) :
    (m >>= f) s = (.err, s') := by rw [bind_apply, h]
theorem bind_panic {m : M σ α} {f : α → M σ β} {s s' : σ} (h : m s = (.panic, s')) :
    (m >>= f) s = (.panic, s') := by rw [bind_apply, h]

/-- A sequence succeeds iff both parts do. -/
theorem bind_ok_iff {m : M σ α} {f : α → M σ β} {s t : σ} {b : β} :
    (m >>= f) s = (.ok b, t) ↔ ∃ a s', m s = (.ok a, s') ∧ f a s' = (.ok b, t) := by
  rw [bind_apply]
  rcases h : m s with ⟨r, s'⟩
  cases r with
  | ok a =>
    constructor
    · intro hh; exact ⟨a, s', rfl, hh⟩
    · rintro ⟨a', s'', h1, h2⟩
      simp only [Prod.mk.injEq, Res.ok.injEq] at h1
      obtain ⟨rfl, rfl⟩ := h1; exact h2
  | err => simp
  | panic => simp

@[simp] theorem errIf_true (s : σ) : (errIf true : M σ Unit) s = (.err, s) := rfl
@[simp] theorem errIf_false (s : σ) : (errIf false : M σ Unit) s = (.ok (), s) := rfl
@[simp] theorem panicIf_true (s : σ) : (panicIf true : M σ Unit) s = (.panic, s) := rfl
@[simp] theorem panicIf_false (s : σ) : (panicIf false : M σ Unit) s = (.ok (), s) := rfl
@[simp] theorem orPanic_some (a : α) (s : σ) : (orPanic (some a) : M σ α) s = (.ok a, s) := rfl
@[simp] theorem orPanic_none (s : σ) : (orPanic none : M σ α) s = (.panic, s) := rfl

theorem errIf_ok_iff {c : Bool} {s t : σ} {u : Unit} :
    (errIf c : M σ Unit) s = (.ok u, t) ↔ c = false ∧ t = s := by
  cases c <;> simp [eq_comm]

theorem panicIf_ok_iff {c : Bool} {s t : σ} {u : Unit} :
    (panicIf c : M σ Unit) s = (.ok u, t) ↔ c = false ∧ t = s := by
  cases c <;> simp [eq_comm]

theorem orPanic_ok_iff {o : Option α} {a : α} {s t : σ} :
    (orPanic o : M σ α) s = (.ok a, t) ↔ o = some a ∧ t = s := by
  cases o <;> simp [eq_comm]

theorem get_bind_ok {f : σ → M σ β} {s t : σ} {b : β} :
    ((get : M σ σ) >>= f) s = (.ok b, t) ↔ f s s = (.ok b, t) := Iff.rfl

theorem errIf_bind_ok {c : Bool} {f : Unit → M σ β} {s t : σ} {b : β} :
    (errIf c >>= f) s = (.ok b, t) ↔ c = false ∧ f () s = (.ok b, t) := by
  cases c
  · exact ⟨fun h => ⟨rfl, h⟩, fun h => h.2⟩
  · constructor
    · intro h; rw [bind_err (errIf_true s)] at h; simp at h
    · rintro ⟨h, -⟩; cases h

theorem panicIf_bind_ok {c : Bool} {f : Unit → M σ β} {s t : σ} {b : β} :
    (panicIf c >>= f) s = (.ok b, t) ↔ c = false ∧ f () s = (.ok b, t) := by
  cases c
  · exact ⟨fun h => ⟨rfl, h⟩, fun h => h.2⟩
  · constructor
    · intro h; rw [bind_panic (panicIf_true s)] at h; simp at h
    · rintro ⟨h, -⟩; cases h

theorem orPanic_bind_ok {o : Option α} {f : α → M σ β} {s t : σ} {b : β} :
    (orPanic o >>= f) s = (.ok b, t) ↔ ∃ a, o = some a ∧ f a s = (.ok b, t) := by
  cases o with
  | none =>
    constructor
    · intro h; rw [bind_panic (orPanic_none s)] at h; simp at h
    · rintro ⟨a, h, -⟩; cases h
  | some a =>
    constructor
    · intro h; exact ⟨a, rfl, h⟩
    · rintro ⟨b, h, h2⟩; injection h with h; subst h; exact h2

theorem modify_bind_ok {g : σ → σ} {f : Unit → M σ β} {s t : σ} {b : β} :
    (modify g >>= f) s = (.ok b, t) ↔ f () (g s) = (.ok b, t) := Iff.rfl

theorem pure_ok {a b : α} {s t : σ} : (Pure.pure a : M σ α) s = (.ok b, t) ↔ a = b ∧ s = t := by
  simp

@[simp] theorem forEach_nil (f : β → M σ Unit) : forEach [] f = (M.pure () : M σ Unit) := rfl
@[simp] theorem forEach_cons (b : β) (t : List β) (f : β → M σ Unit) :
    forEach (b :: t) f = (f b >>= fun _ => forEach t f) := rfl

theorem tx_of_ok {m : M σ α} {s t : σ} {a : α} (h : m s = (.ok a, t)) : tx m s = t := by simp [tx, h]

theorem tx_of_fail {m : M σ α} {s : σ} (h : (m s).1.isOk = false) : tx m s = s := by
  unfold tx
  rcases hm : m s with ⟨r, t⟩
  rw [hm] at h
  cases r <;> simp at h <;> rfl

/-- Either the transaction succeeded with the final state of the computation, or nothing changed. -/
theorem tx_cases (m : M σ α) (s : σ) : (∃ a, m s = (.ok a, tx m s)) ∨ (succeeds m s = false ∧ tx m s = s) := by
  unfold tx succeeds
  rcases hm : m s with ⟨r, t⟩
  cases r with
  | ok a => left; exact ⟨a, rfl⟩
  | err => right; exact ⟨rfl, rfl⟩
  | panic => right; exact ⟨rfl, rfl⟩

/-- `P` survives the computation, however it ends. -/
def Preserves (P : σ → Prop) (m : M σ α) : Prop := ∀ s, P s → P (m s).2

theorem Preserves.bind {P : σ → Prop} {m : M σ α} {f : α → M σ β}
    (hm : Preserves P m) (hf : ∀ a, Preserves P (f a)) : Preserves P (m >>= f) := by
  intro s hs
  have := hm s hs
  rw [bind_apply]
  rcases h : m s with ⟨r, s'⟩
  rw [h] at this
  cases r with
  | ok a => exact hf a s' this
  | err => exact this
  | panic => exact this

theorem Preserves.pure {P : σ → Prop} (a : α) : Preserves P (Pure.pure a : M σ α) := fun _ h => h
theorem Preserves.err {P : σ → Prop} : Preserves P (M.err : M σ α) := fun _ h => h
theorem Preserves.panic {P : σ → Prop} : Preserves P (M.panic : M σ α) := fun _ h => h
theorem Preserves.get {P : σ → Prop} : Preserves P (M.get : M σ σ) := fun _ h => h
theorem Preserves.errIf {P : σ → Prop} (c : Bool) : Preserves P (M.errIf c : M σ Unit) := by
  intro s h; cases c <;> exact h
theorem Preserves.panicIf {P : σ → Prop} (c : Bool) : Preserves P (M.panicIf c : M σ Unit) := by
  intro s h; cases c <;> exact h
theorem Preserves.orPanic {P : σ → Prop} (o : Option α) : Preserves P (M.orPanic o : M σ α) := by
  intro s h; cases o <;> exact h
theorem Preserves.modify {P : σ → Prop} {f : σ → σ} (h : ∀ s, P s → P (f s)) : Preserves P (M.modify f) :=
  fun s hs => h s hs
theorem Preserves.ignoreErr {P : σ → Prop} {m : M σ α} (h : Preserves P m) : Preserves P (ignoreErr m) := by
  intro s hs
  have := h s hs
  unfold M.ignoreErr
  rcases hm : m s with ⟨r, t⟩
  rw [hm] at this
  cases r <;> exact this
theorem Preserves.forEach {P : σ → Prop} {l : List β} {f : β → M σ Unit}
    (h : ∀ b ∈ l, Preserves P (f b)) : Preserves P (M.forEach l f) := by
  induction l with
  | nil => exact fun _ h => h
  | cons b t ih =>
    rw [forEach_cons]
    exact Preserves.bind (h b (by simp)) (fun _ => ih (fun c hc => h c (by simp [hc])))
theorem Preserves.tx {P : σ → Prop} {m : M σ α} (h : Preserves P m) {s : σ} (hs : P s) : P (M.tx m s) := by
  rcases tx_cases m s with ⟨a, ha⟩ | ⟨-, ha⟩
  · have := h s hs; rw [ha] at this; exact this
  · rw [ha]; exact hs

end M
end Verif
