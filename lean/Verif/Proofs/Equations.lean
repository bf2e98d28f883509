/-
Fuel-free versions of the stack-manipulating methods and the equations they satisfy.
-/
import Verif.Proofs.Fuel

namespace SJ

variable (E : Env) (R : Shape)

def pop : M Unit := fun s => popParser E R (fuelFor s.stack.length) s
def chP (p : Path) : M Unit := fun s => childParsed E R (fuelFor s.stack.length) p s
def endP (sh : Shape) (p : Path) : M Unit := fun s => endParsing E R (fuelFor s.stack.length) sh p s
def mapEndD : M Unit := fun s => dispatchMapEnd E R (fuelFor s.stack.length) s

/-- `endParsing` without the final `popParser`. -/
def complete (sh : Shape) (p : Path) : M Unit :=
  M.bind (modC p fun c => { c with set := true }) fun _ => finish E sh p

variable {E R}

theorem popParser_eq {n : Nat} {s : St} (h : 4 * s.stack.length + 1 ≤ n) :
    popParser E R n s = pop E R s := by
  have := (layer2_good (E := E) (R := R) _ s (Nat.le_refl _)).1
  exact (this.1 n h).trans (this.1 _ (by unfold fuelFor; omega)).symm

theorem childParsed_eq {n : Nat} {p : Path} {s : St} (h : 4 * s.stack.length + 4 ≤ n) :
    childParsed E R n p s = chP E R p s := by
  have := (layer2_good (E := E) (R := R) _ s (Nat.le_refl _)).2.2.2 p
  exact (this.1 n h).trans (this.1 _ (by unfold fuelFor; omega)).symm

theorem endParsing_eq {n : Nat} {sh : Shape} {p : Path} {s : St} (h : 4 * s.stack.length + 2 ≤ n) :
    endParsing E R n sh p s = endP E R sh p s := by
  have := (layer2_good (E := E) (R := R) _ s (Nat.le_refl _)).2.1 sh p
  exact (this.1 n h).trans (this.1 _ (by unfold fuelFor; omega)).symm

theorem dispatchMapEnd_eq {n : Nat} {s : St} (h : 4 * s.stack.length + 3 ≤ n) :
    dispatchMapEnd E R n s = mapEndD E R s := by
  have := (layer2_good (E := E) (R := R) _ s (Nat.le_refl _)).2.2.1
  exact (this.1 n h).trans (this.1 _ (by unfold fuelFor; omega)).symm

theorem pop_ok_len {s s' : St} (h : pop E R s = .ok () s') : s'.stack.length ≤ s.stack.length - 1 := by
  have := (layer2_good (E := E) (R := R) _ s (Nat.le_refl _)).1
  exact (this.mono (b' := fuelFor s.stack.length) (by unfold fuelFor; omega) (Nat.le_refl _)).2.2 s' h

theorem endP_ok_len {sh p} {s s' : St} (h : endP E R sh p s = .ok () s') :
    s'.stack.length ≤ s.stack.length := by
  have := (layer2_good (E := E) (R := R) _ s (Nat.le_refl _)).2.1 sh p
  exact (this.mono (b' := fuelFor s.stack.length) (by unfold fuelFor; omega) (Nat.le_refl _)).2.2 s' h

theorem pop_ne_fuel {s : St} : pop E R s ≠ .fuel := by
  have := (layer2_good (E := E) (R := R) _ s (Nat.le_refl _)).1
  exact (this.mono (b' := fuelFor s.stack.length) (by unfold fuelFor; omega) (Nat.le_refl _)).2.1

theorem endP_ne_fuel {sh p} {s : St} : endP E R sh p s ≠ .fuel := by
  have := (layer2_good (E := E) (R := R) _ s (Nat.le_refl _)).2.1 sh p
  exact (this.mono (b' := fuelFor s.stack.length) (by unfold fuelFor; omega) (Nat.le_refl _)).2.1

theorem chP_ne_fuel {p} {s : St} : chP E R p s ≠ .fuel :=
  ((layer2_good (E := E) (R := R) _ s (Nat.le_refl _)).2.2.2 p).2.1

theorem mapEndD_ne_fuel {s : St} : mapEndD E R s ≠ .fuel := by
  have := (layer2_good (E := E) (R := R) _ s (Nat.le_refl _)).2.2.1
  exact (this.mono (b' := fuelFor s.stack.length) (by unfold fuelFor; omega) (Nat.le_refl _)).2.1

/-! ### Equations -/

theorem pop_nil {s : St} (h : s.stack = []) :
    pop E R s = .throw (.std "Can not pop parser, parsers stack is empty") s := by
  simp [pop, fuelFor, popParser, h]

theorem pop_one {s : St} {p : Path} (h : s.stack = [p]) : pop E R s = .ok () { s with stack := [] } := by
  simp [pop, fuelFor, popParser, h]

theorem pop_cons {s : St} {p q : Path} {r : List Path} (h : s.stack = p :: q :: r) :
    pop E R s = chP E R q { s with stack := q :: r } := by
  rw [pop, show fuelFor s.stack.length = (4 * s.stack.length + 3) + 1 from rfl]
  simp only [popParser, h]
  rw [childParsed_eq]
  simp only [List.length_cons]; omega

/-- `M.bind` congruence at a state. -/
theorem bind_congr {α β} {m m' : M α} {f f' : α → M β} {s : St} (h : m s = m' s)
    (hf : ∀ a s', m' s = .ok a s' → f a s' = f' a s') : M.bind m f s = M.bind m' f' s := by
  unfold M.bind; rw [h]
  cases hc : m' s <;> simp only
  exact hf _ _ hc

theorem endP_eq {sh : Shape} {p : Path} :
    endP E R sh p = M.bind (complete E sh p) fun _ =>
      M.bind (getC p) fun c => if c.disp then pop E R else M.pure () := by
  funext s
  rw [endP, show fuelFor s.stack.length = (4 * s.stack.length + 3) + 1 from rfl]
  rw [endParsing]
  unfold complete
  have h1 := Calm.finish (E := E) sh p { s with heap := s.heap.upd p fun c => { c with set := true } }
  simp only [M.bind, modC, getC]
  cases hf : finish E sh p { s with heap := s.heap.upd p fun c => { c with set := true } } with
  | ok a s' =>
    rw [hf] at h1
    simp only at h1 ⊢
    by_cases hd : (s'.heap p).disp = true
    · simp only [hd, if_true]; exact popParser_eq (by rw [h1]; omega)
    · simp [hd]
  | _ => rfl

theorem chP_union {p : Path} {ty tm st ms} (h : R.at p = some (.union ty tm st ms)) :
    chP E R p = M.bind (endP E R (.union ty tm st ms) p) fun _ =>
      if tm = "" then M.bind (getC p) fun c => if c.disp then mapEndD E R else fun _ => .ub
      else M.pure () := by
  funext s
  rw [chP, show fuelFor s.stack.length = (4 * s.stack.length + 3) + 1 from rfl, childParsed, h]
  simp only
  refine bind_congr (endParsing_eq (by omega)) fun a s' hs => ?_
  have := endP_ok_len hs
  split
  · refine bind_congr rfl fun c s'' hs' => ?_
    injection hs' with _ h2; subst h2
    split
    · exact dispatchMapEnd_eq (by omega)
    · rfl
  · rfl

theorem chP_sarray {p : Path} {e} (h : R.at p = some (.array true e)) :
    chP E R p = M.bind (popVal (.elem :: p)) fun v =>
      modC p fun c => { c with val := .arr (c.val.vec ++ [v]) } := by
  funext s
  rw [chP, show fuelFor s.stack.length = (4 * s.stack.length + 3) + 1 from rfl, childParsed, h]

theorem chP_map {p : Path} {e} (h : R.at p = some (.map false e)) : chP E R p = elementCb E e p := by
  funext s
  rw [chP, show fuelFor s.stack.length = (4 * s.stack.length + 3) + 1 from rfl, childParsed, h]

theorem chP_smap {p : Path} {e} (h : R.at p = some (.map true e)) :
    chP E R p = M.bind (elementCb E e p) fun _ =>
      M.bind (popVal (.elem :: p)) fun v =>
      modC p fun c => { c with val := .map (mapInsert c.curKey v c.val.entries) } := by
  funext s
  rw [chP, show fuelFor s.stack.length = (4 * s.stack.length + 3) + 1 from rfl, childParsed, h]

theorem chP_value {p : Path} {ty} (h : R.at p = some (.value ty)) : chP E R p = M.pure () := by
  funext s
  rw [chP, show fuelFor s.stack.length = (4 * s.stack.length + 3) + 1 from rfl, childParsed, h]

theorem chP_object {p : Path} {k u ms} (h : R.at p = some (.object k u ms)) : chP E R p = M.pure () := by
  funext s
  rw [chP, show fuelFor s.stack.length = (4 * s.stack.length + 3) + 1 from rfl, childParsed, h]

theorem chP_array {p : Path} {e} (h : R.at p = some (.array false e)) : chP E R p = M.pure () := by
  funext s
  rw [chP, show fuelFor s.stack.length = (4 * s.stack.length + 3) + 1 from rfl, childParsed, h]

theorem chP_ignore {p : Path} (h : R.at p = some .ignore) : chP E R p = M.pure () := by
  funext s
  rw [chP, show fuelFor s.stack.length = (4 * s.stack.length + 3) + 1 from rfl, childParsed, h]

theorem chP_none {p : Path} (h : R.at p = none) : chP E R p = fun _ => .ub := by
  funext s
  rw [chP, show fuelFor s.stack.length = (4 * s.stack.length + 3) + 1 from rfl, childParsed, h]

/-- `childParsed` of an array does not depend on the fuel. -/
theorem childParsed_array {p : Path} {st e} (h : R.at p = some (.array st e)) (n : Nat) :
    childParsed E R (n + 1) p = chP E R p := by
  cases st
  · rw [chP_array h, childParsed, h]
  · rw [chP_sarray h, childParsed, h]

theorem mapEndD_nil {s : St} (h : s.stack = []) :
    mapEndD E R s = .throw (.std "Parsers stack is empty") s := by
  simp [mapEndD, fuelFor, dispatchMapEnd, h]

theorem mapEndD_object {s : St} {p r k u ms} (h : s.stack = p :: r) (hR : R.at p = some (.object k u ms)) :
    mapEndD E R s = endP E R (.object k u ms) p s := by
  rw [mapEndD, show fuelFor s.stack.length = (4 * s.stack.length + 3) + 1 from rfl]
  simp only [dispatchMapEnd, h, hR]
  exact endParsing_eq (by rw [h]; omega)

theorem mapEndD_union {s : St} {p r ty tm st ms} (h : s.stack = p :: r)
    (hR : R.at p = some (.union ty tm st ms)) :
    mapEndD E R s = endP E R (.union ty tm st ms) p s := by
  rw [mapEndD, show fuelFor s.stack.length = (4 * s.stack.length + 3) + 1 from rfl]
  simp only [dispatchMapEnd, h, hR]
  exact endParsing_eq (by rw [h]; omega)

theorem mapEndD_map {s : St} {p r st e} (h : s.stack = p :: r) (hR : R.at p = some (.map st e)) :
    mapEndD E R s = endP E R (.map st e) p s := by
  rw [mapEndD, show fuelFor s.stack.length = (4 * s.stack.length + 3) + 1 from rfl]
  simp only [dispatchMapEnd, h, hR]
  exact endParsing_eq (by rw [h]; omega)

theorem mapEndD_value {s : St} {p r ty} (h : s.stack = p :: r) (hR : R.at p = some (.value ty)) :
    mapEndD E R s = unexpected .mapEnd s := by
  rw [mapEndD, show fuelFor s.stack.length = (4 * s.stack.length + 3) + 1 from rfl]
  simp only [dispatchMapEnd, h, hR]

theorem mapEndD_array {s : St} {p r st e} (h : s.stack = p :: r) (hR : R.at p = some (.array st e)) :
    mapEndD E R s = unexpected .mapEnd s := by
  rw [mapEndD, show fuelFor s.stack.length = (4 * s.stack.length + 3) + 1 from rfl]
  simp only [dispatchMapEnd, h, hR]

theorem mapEndD_ignore {s : St} {p r} (h : s.stack = p :: r) (hR : R.at p = some .ignore) :
    mapEndD E R s = match (s.heap p).struct with
        | true :: r' =>
          let s' := { s with heap := s.heap.upd p fun c => { c with struct := r' } }
          if r' = [] then endP E R .ignore p s' else .ok () s'
        | _ => unexpected .mapEnd s := by
  rw [mapEndD, show fuelFor s.stack.length = (4 * s.stack.length + 3) + 1 from rfl]
  simp only [dispatchMapEnd, h, hR]
  match hst : (s.heap p).struct with
  | true :: r' =>
    simp only
    split
    · exact endParsing_eq (by simp only; omega)
    · rfl
  | false :: r' => rfl
  | [] => rfl

theorem mapEndD_none {s : St} {p r} (h : s.stack = p :: r) (hR : R.at p = none) :
    mapEndD E R s = .ub := by
  rw [mapEndD, show fuelFor s.stack.length = (4 * s.stack.length + 3) + 1 from rfl]
  simp only [dispatchMapEnd, h, hR]

theorem Calm.complete (sh p) : Calm (complete E sh p) :=
  Calm.bind (Calm.modC _ _) fun _ => Calm.finish _ _

/-! ### Fuel-free `on` -/

variable (E R)

/-- `TokenParser::on(NullT)` without fuel. -/
def nullBase (sh : Shape) (p : Path) : M Unit :=
  M.bind (modH (resetH p sh)) fun _ =>
  M.bind (getC p) fun c => if c.disp then pop E R else M.pure ()

/-- `on` of the model with the fuel replaced by the fuel-free functions. -/
def onF : Shape → Path → Token → M Unit
  | .value ty, p, t =>
    match t with
    | .null => nullBase E R (.value ty) p
    | .scalar v =>
      if v.ty = ty then
        M.bind (setNotEmpty p) fun _ =>
        M.bind (modC p fun c => { c with val := .sc v }) fun _ =>
        endP E R (.value ty) p
      else unexpected t
    | _ => unexpected t
  | .ignore, p, t =>
    match t with
    | .null => nullBase E R .ignore p
    | .scalar _ =>
      M.bind (getC p) fun c => if c.struct = [] then endP E R .ignore p else M.pure ()
    | .mapStart => modC p fun c => { c with struct := true :: c.struct }
    | .arrStart => modC p fun c => { c with struct := false :: c.struct }
    | .mapKey _ =>
      M.bind (getC p) fun c =>
      match c.struct with
      | true :: _ => M.pure ()
      | _ => unexpected t
    | .mapEnd =>
      M.bind (getC p) fun c =>
      match c.struct with
      | true :: r =>
        M.bind (modC p fun c => { c with struct := r }) fun _ =>
        if r = [] then endP E R .ignore p else M.pure ()
      | _ => unexpected t
    | .arrEnd =>
      M.bind (getC p) fun c =>
      match c.struct with
      | false :: r =>
        M.bind (modC p fun c => { c with struct := r }) fun _ =>
        if r = [] then endP E R .ignore p else M.pure ()
      | _ => unexpected t
  | .object k u ms, p, t =>
    match t with
    | .null => nullBase E R (.object k u ms) p
    | .mapStart => modH (resetH p (.object k u ms))
    | .mapKey key => M.bind (onMember E u ms p (.str key)) fun _ => M.pure ()
    | .mapEnd => endP E R (.object k u ms) p
    | _ => unexpected t
  | .union ty tm st ms, p, t =>
    match t with
    | .null => nullBase E R (.union ty tm st ms) p
    | .scalar v =>
      if v.ty = ty then
        M.bind (modH (resetH p (.union ty tm st ms))) fun _ =>
        M.bind (onMember E true ms p v) fun r =>
        match r with
        | some n => modC p fun c => { c with curId := n }
        | none => M.pure ()
      else unexpected t
    | .mapStart =>
      if tm = "" then throwStd "Union with an empty type member can't parse this"
      else modH (resetH p (.union ty tm st ms))
    | .mapKey key =>
      if tm = "" then throwStd "Union with an empty type member can't parse this"
      else if key ≠ tm then throwStd ("Unexpected member " ++ key)
      else M.pure ()
    | .mapEnd => endP E R (.union ty tm st ms) p
    | _ => unexpected t
  | .array st e, p, t =>
    match t with
    | .null =>
      M.bind (getC p) fun c =>
      if !c.started then nullBase E R (.array st e) p else onF e (.elem :: p) .null
    | .scalar v =>
      M.bind (getC p) fun c =>
      if !c.started then unexpected t
      else
        M.bind (onF e (.elem :: p) (.scalar v)) fun _ =>
        M.bind (setNotEmpty p) fun _ =>
        chP E R p
    | .mapStart =>
      M.bind (getC p) fun c =>
      if !c.started then unexpected t
      else if !c.disp then fun _ => .ub
      else
        M.bind (setNotEmpty p) fun _ =>
        M.bind (modH (setDispH (.elem :: p) e)) fun _ =>
        M.bind (pushParser (.elem :: p)) fun _ =>
        onF e (.elem :: p) .mapStart
    | .arrStart =>
      M.bind (getC p) fun c =>
      if !c.started then
        M.bind (modH (resetH p (.array st e))) fun _ =>
        modC p fun c => { c with started := true }
      else if !c.disp then fun _ => .ub
      else
        M.bind (setNotEmpty p) fun _ =>
        M.bind (modH (setDispH (.elem :: p) e)) fun _ =>
        M.bind (pushParser (.elem :: p)) fun _ =>
        onF e (.elem :: p) .arrStart
    | .arrEnd =>
      M.bind (modC p fun c => { c with started := false }) fun _ =>
      endP E R (.array st e) p
    | _ => unexpected t
  | .map st e, p, t =>
    match t with
    | .null => nullBase E R (.map st e) p
    | .mapStart => modH (resetH p (.map st e))
    | .mapKey key =>
      M.bind (setNotEmpty p) fun _ =>
      M.bind (getC p) fun c =>
      if c.disp then
        M.bind (pushParser (.elem :: p)) fun _ =>
        modC p fun c => { c with curKey := key }
      else fun _ => .ub
    | .mapEnd => endP E R (.map st e) p
    | _ => unexpected t

variable {E R}

theorem onNullBase_eq {f sh p} {s : St} (h : 4 * s.stack.length + 4 ≤ f) :
    onNullBase E R f sh p s = nullBase E R sh p s := by
  refine bind_congr rfl fun _ s1 h1 => bind_congr rfl fun c s2 h2 => ?_
  injection h1 with _ h1; subst h1
  injection h2 with _ h2; subst h2
  split
  · exact popParser_eq (by simp only; omega)
  · rfl

/-- Induction over nested arrays. -/
theorem Shape.arrInd {motive : Shape → Prop} (value : ∀ ty, motive (.value ty)) (ignore : motive .ignore)
    (object : ∀ k u ms, motive (.object k u ms)) (union : ∀ ty tm st ms, motive (.union ty tm st ms))
    (map : ∀ st e, motive (.map st e)) (array : ∀ st e, motive e → motive (.array st e)) :
    ∀ sh, motive sh
  | .value ty => value ty
  | .ignore => ignore
  | .object k u ms => object k u ms
  | .union ty tm st ms => union ty tm st ms
  | .map st e => map st e
  | .array st e => array st e (Shape.arrInd value ignore object union map array e)

/-- Start tokens do not use the fuel. -/
theorem on_start (t : Token) (ht : t = .mapStart ∨ t = .arrStart) (f : Nat) (sh : Shape) (p : Path) :
    on E R f sh p t = onF E R sh p t := by
  induction sh using Shape.arrInd generalizing p with
  | array st e ih => rcases ht with rfl | rfl <;> simp only [on, onF, ih]
  | _ => rcases ht with rfl | rfl <;> trivial

theorem on_eq (sh : Shape) (p : Path) (t : Token) (hR : R.at p = some sh) (f : Nat) (s : St)
    (h : 4 * s.stack.length + 4 ≤ f) : on E R f sh p t s = onF E R sh p t s := by
  induction sh using Shape.arrInd generalizing p s with
  | value ty =>
    cases t with
    | null => exact onNullBase_eq h
    | scalar v =>
      simp only [on, onF]
      split
      · refine bind_congr rfl fun _ s1 h1 => bind_congr rfl fun c s2 h2 => ?_
        injection h1 with _ h1; subst h1
        injection h2 with _ h2; subst h2
        exact endParsing_eq (by simp only; omega)
      · rfl
    | _ => rfl
  | ignore =>
    cases t with
    | null => exact onNullBase_eq h
    | scalar v =>
      simp only [on, onF]
      refine bind_congr rfl fun c s1 h1 => ?_
      injection h1 with _ h1; subst h1
      split
      · exact endParsing_eq (by omega)
      · rfl
    | mapEnd =>
      simp only [on, onF]
      refine bind_congr rfl fun c s1 h1 => ?_
      injection h1 with _ h1; subst h1
      match c.struct with
      | true :: r =>
        refine bind_congr rfl fun c s1 h1 => ?_
        injection h1 with _ h1; subst h1
        split
        · exact endParsing_eq (by simp only; omega)
        · rfl
      | false :: r => rfl
      | [] => rfl
    | arrEnd =>
      simp only [on, onF]
      refine bind_congr rfl fun c s1 h1 => ?_
      injection h1 with _ h1; subst h1
      match c.struct with
      | false :: r =>
        refine bind_congr rfl fun c s1 h1 => ?_
        injection h1 with _ h1; subst h1
        split
        · exact endParsing_eq (by simp only; omega)
        · rfl
      | true :: r => rfl
      | [] => rfl
    | _ => rfl
  | object k u ms =>
    cases t with
    | null => exact onNullBase_eq h
    | mapEnd => exact endParsing_eq (by omega)
    | _ => rfl
  | union ty tm st ms =>
    cases t with
    | null => exact onNullBase_eq h
    | mapEnd => exact endParsing_eq (by omega)
    | _ => rfl
  | map st e =>
    cases t with
    | null => exact onNullBase_eq h
    | mapEnd => exact endParsing_eq (by omega)
    | _ => rfl
  | array st e ih =>
    have hRe : R.at (.elem :: p) = some e := by simp [Shape.at, hR, Shape.child]
    cases t with
    | null =>
      simp only [on, onF]
      refine bind_congr rfl fun c s1 h1 => ?_
      injection h1 with _ h1; subst h1
      split
      · exact onNullBase_eq h
      · exact ih _ hRe _ h
    | scalar v =>
      simp only [on, onF]
      refine bind_congr rfl fun c s1 h1 => ?_
      injection h1 with _ h1; subst h1
      split
      · rfl
      · refine bind_congr (ih _ hRe _ h) fun _ s2 h2 => bind_congr rfl fun _ s3 h3 => ?_
        obtain ⟨g, rfl⟩ : ∃ g, f = g + 1 := ⟨f - 1, by omega⟩
        rw [childParsed_array hR]
    | mapStart => simp only [on, onF, on_start (E := E) (R := R) .mapStart (Or.inl rfl) f e]
    | arrStart => simp only [on, onF, on_start (E := E) (R := R) .arrStart (Or.inr rfl) f e]
    | arrEnd =>
      simp only [on, onF]
      refine bind_congr rfl fun c s1 h1 => ?_
      injection h1 with _ h1; subst h1
      exact endParsing_eq (by simp only; omega)
    | _ => rfl

theorem dispatch_nil {t : Token} {s : St} (h : s.stack = []) :
    dispatch E R t s = .throw (.std "Parsers stack is empty") s := by
  simp [dispatch, h]

theorem dispatch_cons {t : Token} {s : St} {p r sh} (h : s.stack = p :: r) (hR : R.at p = some sh) :
    dispatch E R t s = onF E R sh p t s := by
  simp only [dispatch, h, hR]
  exact on_eq sh p t hR _ s (by rw [h]; unfold fuelFor; omega)

theorem run_cons {t : Token} {ts : List Token} {s : St} :
    run E R (t :: ts) s = M.bind (dispatch E R t) (fun _ => run E R ts) s := rfl

theorem run_append (a b : List Token) : run E R (a ++ b) = M.bind (run E R a) fun _ => run E R b := by
  induction a with
  | nil => rfl
  | cons t a ih =>
    funext s
    simp only [List.cons_append, run_cons, ih]
    simp only [M.bind]
    cases hd : dispatch E R t s <;> simp [run_cons, M.bind, hd]

end SJ
