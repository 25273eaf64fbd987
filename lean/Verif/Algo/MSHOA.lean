import Verif.Loose
import Verif.Safe
import Verif.RepairProps
import Verif.Runs
import Verif.Algo.FWA

/-!
# Mantis search algorithm (basic/mshoa.py)

`init_population` evaluates the initial population twice and drops the first values. With `normalize_space=True` it returns the
population in normalised coordinates although `run_iteration` expects (and returns) real ones.
-/

namespace NiaPy.MSHOA
open NiaPy
variable [Arith] {D N : ℕ} {C : Ctx (Vec D)}

/-- Parameters (mshoa.py:65-84): `k_value`, `use_reflection`, `normalize_space`. `debug_pti` has no effect. -/
structure Par where
  k : Fl
  reflect : Bool
  norm : Bool

/-- Population, fitness and the parameter `pti` (polarization types). -/
structure St (D N : ℕ) where
  pop : Fin N → Vec D
  fit : Fin N → Fl
  pti : Fin N → ℤ

/-- One round of reflections of a coordinate (mshoa.py:151-159): both conditions are computed first. -/
def bounce (lo hi v : Fl) : Fl :=
  let v' := if v < lo then lo + (lo - v) else v
  if hi < v then hi - (v' - hi) else v'

/-- `_reflect_repair` (mshoa.py:126-166). A round leaves coordinates within the bounds alone, so leaving the loop when all of them
are is the same as going on. -/
def reflectRepair (lo hi x : Vec D) : Vec D := fun j => Repair.clip ((bounce (lo j) (hi j))^[10] (x j)) (lo j) (hi j)

/-- `_normalize_to_real` (mshoa.py:168-180). -/
def toReal (B : Box D) (z : Vec D) : Vec D := fun j => B.lo j + (z j + 1) * lit 1 2 * (B.hi j - B.lo j)

/-- `_normalize_from_real` (mshoa.py:182-194). -/
def fromReal (B : Box D) (x : Vec D) : Vec D := fun j => Fl.ofNat 2 * (x j - B.lo j) / (B.hi j - B.lo j) - 1

/-- `np.pi / 8` -/
def pi8 : Fl := piF / Fl.ofNat 8

/-- `_determine_polarization_type_vectorized` (mshoa.py:196-229) for one angle: later assignments win. -/
def ptype (a : Fl) : ℤ :=
  if (pi8 < a ∧ a < Fl.ofNat 3 * pi8) ∨ (Fl.ofNat 5 * pi8 < a ∧ a < Fl.ofNat 7 * pi8) then 3
  else if (0 ≤ a ∧ a ≤ pi8) ∨ (Fl.ofNat 7 * pi8 ≤ a ∧ a ≤ piF) then 2
  else if Fl.ofNat 3 * pi8 ≤ a ∧ a ≤ Fl.ofNat 5 * pi8 then 1
  else 2

/-- `_calculate_angular_difference_vectorized` (mshoa.py:231-271) for one angle. -/
def adiff (a : Fl) (t : ℤ) : Fl :=
  if t = 1 then Fl.abs (a - piF / Fl.ofNat 2)
  else if t = 2 then Fl.npMin (Fl.abs (a - 0)) (Fl.abs (a - piF))
  else if t = 3 then Fl.npMin (Fl.abs (a - piF / Fl.ofNat 4)) (Fl.abs (a - Fl.ofNat 3 * piF / Fl.ofNat 4))
  else 0

/-- `init_population` (mshoa.py:273-304). -/
def init (B : Box D) (N : ℕ) (p : Par) : Prog (Vec D) (St D N) := do
  let (pop, _) ← defaultNumpyInit B N
  let pop : Fin N → Vec D := if p.norm then fun i => fromReal B (pop i) else pop
  let fit ← evalRows (if p.norm then fun i => toReal B (pop i) else pop)
  let r ← randVec N
  return ⟨pop, fit, fun i => FWA.toInt (Arith.fn .round (1 + Fl.ofNat 2 * r i))⟩

/-- The other mantis of the foraging strategy (mshoa.py:374-378): if the index drawn is the mantis itself, the next one. -/
def partner (i r : Fin N) : Fin N := if N > 1 ∧ r = i then ⟨(r + 1) % N, Nat.mod_lt _ (by have := i.2; omega)⟩ else r

/-- Draws one value for each mantis with the given type; nothing is drawn for the others. -/
def drawFor {α : Type} (pti : Fin N → ℤ) (t : ℤ) (dflt : Fin N → α) (m : Prog (Vec D) α) : Prog (Vec D) (Fin N → α) :=
  tabM N fun i => if pti i = t then m else pure (dflt i)

/-- The three strategies (mshoa.py:355-412), for all mantises at once. -/
def strategies (p : Par) (pti : Fin N → ℤ) (pop : Fin N → Vec D) (xb : Vec D) : Prog (Vec D) (Fin N → Vec D) := do
  let d ← drawFor pti 1 (fun _ => 0) (Prog.unif (-1) 1)
  let r ← drawFor pti 1 id (intFin N)
  let th ← drawFor pti 2 (fun _ => 0) (Prog.unif piF (Fl.ofNat 2 * piF))
  let u ← drawFor pti 3 (fun _ => 0) Prog.rand
  return fun i j =>
    if pti i = 1 then xb j - (pop i j - xb j) + d i * (pop (partner i (r i)) j - pop i j)
    else if pti i = 2 then xb j * Arith.fn .cos (th i)
    else if pti i = 3 then xb j + (if u i < lit 1 2 then 1 else -1) * p.k * xb j
    else pop i j

/-- The bounds the candidates are reflected at (mshoa.py:337-352). -/
def workLo (B : Box D) (p : Par) : Vec D := if p.norm then fun _ => -1 else B.lo
def workHi (B : Box D) (p : Par) : Vec D := if p.norm then fun _ => 1 else B.hi

/-- mshoa.py:415-421 -/
def fix (B : Box D) (p : Par) (new : Fin N → Vec D) : Prog (Vec D) (Fin N → Vec D) :=
  if p.reflect then return fun i => reflectRepair (workLo B p) (workHi B p) (new i) else repairRows new true

/-- The left polarization angle (mshoa.py:454-470). -/
def leftAngle (old new : Vec D) : Fl :=
  let den := norm2 old * norm2 new
  if Fl.eqB den 0 then 0
  else Repair.clip (Arith.fn .arccos (Repair.clip (vsum (fun j => old j * new j) / den) (-1) 1)) 0 piF

/-- The new type of a mantis (mshoa.py:476-484). -/
def nextType (lpa rpa : Fl) : ℤ :=
  if adiff lpa (ptype lpa) < adiff rpa (ptype rpa) then ptype lpa else ptype rpa

/-- `run_iteration` (mshoa.py:306-502). -/
def iter (B : Box D) (p : Par) (s : St D N) (xb : Vec D) (fxb : Fl) : Prog (Vec D) (St D N × Vec D × Fl) := do
  let old : Fin N → Vec D := if p.norm then fun i => fromReal B (s.pop i) else s.pop
  let new ← strategies p s.pti old (if p.norm then fromReal B xb else xb)
  let new ← fix B p new
  let real : Fin N → Vec D := if p.norm then fun i => toReal B (new i) else new
  let fit ← evalRows real
  let (xb, fxb) ← takeMin real fit xb fxb
  let r ← randVec N
  return (⟨real, fit, fun i => nextType (leftAngle (old i) (new i)) (r i * piF)⟩, xb, fxb)

def alg (B : Box D) (N : ℕ) (p : Par) : Alg (Vec D) where
  σ := St D N
  init := init B N p
  pop s := List.ofFn s.pop
  fit s := List.ofFn s.fit
  iter := iter B p

/-! ### Obligations -/

/-- The points allowed include all that are within the bounds. -/
def Inside (B : Box D) (C : Ctx (Vec D)) : Prop := NoTracking C ∧ ∀ x, B.NotOut x → C.G x

theorem strategies_quiet (p : Par) (pti : Fin N → ℤ) (pop : Fin N → Vec D) (xb : Vec D) : Quiet C (strategies p pti pop xb) := by
  unfold strategies drawFor
  yields

theorem reflect_notOut (B : Box D) (x : Vec D) : B.NotOut (reflectRepair B.lo B.hi x) := fun j => Repair.clip_notOut (B.le j)

theorem wp_fix (B : Box D) {p : Par} (hp : p.norm = false) (hC : Inside B C) (new : Fin N → Vec D) :
    Yields C (fix B p new) fun new => ∀ i, C.G (new i) := by
  unfold fix workLo workHi
  simp only [hp]
  split
  · exact .pure' fun i => hC.2 _ (reflect_notOut B _)
  · exact Yields.repairRows (.inl rfl)

/-- With `normalize_space=False` (the default): everything but keeping the best, since the first values of the initial population are
dropped. -/
theorem verified (B : Box D) (N : ℕ) (p : Par) (hp : p.norm = false) : VerifiedIf (Inside B) (alg B N p) B.Mem true true (.exact (2 * N) N) := by
  refine ⟨fun C s _ => ∀ i, C.F (s.pop i) (s.fit i), fun C hC hG _ _ => AlgOK.toW ⟨fun s b h => forall₂_ofFn fun i => hC.1.fit (h i), fun g hg => ?_, ?_⟩⟩
  · simp only [alg, init, Prog.wp_bind', hp]
    refine wp_initArr hG hg fun r g' _ h2 _ _ h5 => ?_
    refine wp_evalRows (fun i => hG _ (h2 i)) (hC.1.cov (S := fun _ => True)) fun fit g'' _ _ h _ hc => ?_
    exact Yields.wp (P := fun _ => True) (by yields) fun r _ => ⟨fun i => (h i).1, hC.1.cov, by omega⟩
  · intro s xb fxb g hI hF _
    simp only [alg, iter, Prog.wp_bind', hp]
    refine Yields.wp (strategies_quiet p _ _ _) fun new _ => ?_
    refine (wp_fix B hp hC new).wp fun new hnew => ?_
    refine wp_evalRows hnew (hC.1.cov (S := fun _ => True)) fun fit g' _ _ h _ hc => ?_
    refine wp_takeMin (fun i => (h i).1) hF fun b hb => ?_
    exact Yields.wp (P := fun _ => True) (by yields) fun r _ => ⟨fun i => (h i).1, hb, hC.1.eq, Cost.ok_exact hc⟩

theorem dominates (B : Box D) (N : ℕ) (p : Par) : Dominates (alg B N p) := by
  intro env s xb fxb
  refine .bind' .any fun new _ => .bind' .any fun new _ => .bind' .any fun fit _ => .bind' Post.takeMin fun b hb => .bind' .any fun r _ => .pure' ⟨hb.1, fun hx hn f hf => ?_⟩
  obtain ⟨i, rfl⟩ := mem_ofFn_iff.1 hf
  exact hb.2 hx (fun i => hn _ (mem_ofFn_iff.2 ⟨i, rfl⟩)) i

/-! ### The parts -/

/-- Reflection ends within the bounds, ... -/
theorem C73_reflect_inside (B : Box D) (x : Vec D) : B.NotOut (reflectRepair B.lo B.hi x) := reflect_notOut B x

theorem bounce_id {lo hi v : Fl} (h1 : ¬ v < lo) (h2 : ¬ hi < v) : bounce lo hi v = v := by
  unfold bounce
  rw [if_neg h1, if_neg h2]

/-- ... and leaves solutions within the bounds alone. -/
theorem C73_reflect_identity (B : Box D) (x : Vec D) (h : B.NotOut x) : reflectRepair B.lo B.hi x = x := by
  funext j
  unfold reflectRepair
  rw [Function.iterate_fixed (bounce_id (h j).1 (h j).2)]
  exact Repair.clip_id (B.le j) (h j).1 (h j).2

omit [Arith] in
/-- With two mantises or more, a mantis forages towards another one. -/
theorem partner_ne {i r : Fin N} (hN : 1 < N) : partner i r ≠ i := by
  unfold partner
  split
  · rename_i h
    obtain ⟨-, rfl⟩ := h
    intro he
    have h1 : (r.val + 1) % N = r.val := congrArg Fin.val he
    have := r.2
    by_cases hr : r.val + 1 < N
    · rw [Nat.mod_eq_of_lt hr] at h1; omega
    · rw [show r.val + 1 = N by omega, Nat.mod_self] at h1; omega
  · rename_i h
    exact fun he => h ⟨hN, he⟩

/-- What a mantis of type 1, 2 or 3 moves to. -/
def Moves (p : Par) (pti : ℤ) (pop : Fin N → Vec D) (xb : Vec D) (i : Fin N) (new : Vec D) : Prop :=
  (pti = 1 → ∃ d r, -1 ≤ d ∧ d ≤ 1 ∧ (1 < N → r ≠ i) ∧ new = fun j => xb j - (pop i j - xb j) + d * (pop r j - pop i j)) ∧
  (pti = 2 → ∃ th, piF ≤ th ∧ th ≤ Fl.ofNat 2 * piF ∧ new = fun j => xb j * Arith.fn .cos th) ∧
  (pti = 3 → new = (fun j => xb j + 1 * p.k * xb j) ∨ new = fun j => xb j + -1 * p.k * xb j)

/-- The candidates before the repair: each mantis follows the strategy of its type. -/
theorem C73_strategies {env : Env (Vec D)} (p : Par) (pti : Fin N → ℤ) (pop : Fin N → Vec D) (xb : Vec D) :
    Post env (strategies p pti pop xb) fun new => ∀ i, Moves p (pti i) pop xb i (new i) := by
  unfold strategies drawFor
  refine .bind' (P := fun d : Fin N → Fl => ∀ i, pti i = 1 → -1 ≤ d i ∧ d i ≤ 1) (.tabM (P := fun i (v : Fl) => pti i = 1 → -1 ≤ v ∧ v ≤ 1) fun i => ?_) fun d hd => .bind' .any fun r _ =>
    .bind' (P := fun d : Fin N → Fl => ∀ i, pti i = 2 → piF ≤ d i ∧ d i ≤ Fl.ofNat 2 * piF) (.tabM (P := fun i (v : Fl) => pti i = 2 → piF ≤ v ∧ v ≤ Fl.ofNat 2 * piF) fun i => ?_) fun th hth =>
    .bind' .any fun u _ => .pure' fun i => ⟨fun h => ?_, fun h => ?_, fun h => ?_⟩
  · split
    · exact .unif fun r h1 h2 _ => ⟨h1, h2⟩
    · exact .pure' fun h => absurd h ‹_›
  · split
    · exact .unif fun r h1 h2 _ => ⟨h1, h2⟩
    · exact .pure' fun h => absurd h ‹_›
  · exact ⟨d i, partner i (r i), (hd i h).1, (hd i h).2, partner_ne, by simp only [h, if_true]⟩
  · exact ⟨th i, (hth i h).1, (hth i h).2, by simp [h]⟩
  · by_cases hu : u i < lit 1 2
    · exact .inl (by simp [h, hu])
    · exact .inr (by simp [h, hu])

/-- One of the three strategies. -/
def IsType (t : ℤ) : Prop := t = 1 ∨ t = 2 ∨ t = 3

theorem ptype_isType (a : Fl) : IsType (ptype a) := by
  unfold ptype IsType
  split <;> [simp; split <;> [simp; split <;> simp]]

theorem nextType_isType (a b : Fl) : IsType (nextType a b) := by
  unfold nextType
  split <;> exact ptype_isType _

/-- `round(1 + 2 * r)` is 1, 2 or 3 for `r` in [0, 1). -/
def TypeLaw : Prop := ∀ r : Fl, .fin 0 ≤ r → r < .fin 1 → IsType (FWA.toInt (Arith.fn .round (1 + Fl.ofNat 2 * r)))

omit [Arith] in
/-- The law holds in exact arithmetic with a function that rounds to a nearest integer. -/
theorem typeLaw_exact {fn : Fn → Fl → Fl} (h : ∀ q : ℚ, ∃ z : ℤ, fn .round (.fin q) = .fin z ∧ |(z : ℚ) - q| ≤ 1 / 2) : @TypeLaw (exactArith fn) := by
  intro r h0 h1
  cases r with
  | fin q =>
    have h0 := (Fl.fin_le_fin _ _).1 h0
    have h1 := (Fl.fin_lt_fin _ _).1 h1
    obtain ⟨z, hz, ha⟩ := h (1 + 2 * q)
    let _ := exactArith fn
    have he : Arith.fn .round (1 + Fl.ofNat 2 * Fl.fin q) = .fin z := hz
    rw [he]
    have ha := abs_le.1 ha
    have hz1 : (0 : ℚ) < z := by linarith [ha.1]
    have hz2 : (z : ℚ) < 4 := by linarith [ha.2]
    have h3 : 0 < z := by exact_mod_cast hz1
    have h4 : z < 4 := by exact_mod_cast hz2
    have h5 : FWA.toInt (.fin (z : ℚ)) = z := by
      simp only [FWA.toInt, if_pos hz1.le, Int.floor_intCast]
    rw [h5]
    unfold IsType
    omega
  | pinf => exact absurd h1 (by decide)
  | ninf => exact absurd h0 (by decide)
  | nan => exact absurd h0 (by decide)

/-- C73: at every iteration of a run, each mantis has one of the three types. -/
theorem C73_types (hT : TypeLaw) (B : Box D) (N : ℕ) (p : Par) {env : Env (Vec D)} {ncb : ℕ} {hist} {w : World (Vec D)}
    (ht : (alg B N p).Trace env ncb hist w) : ∀ r ∈ hist, ∀ i, IsType (St.pti (N := N) (D := D) r.1 i) := by
  intro r hr
  obtain ⟨pre, rest, he⟩ := List.append_of_mem hr
  refine ht.after (P := fun _ (s : St D N) => ∀ i, IsType (s.pti i)) ?_ (fun _ s xb fxb _ => ?_) he
  · refine .bind' .any fun r _ => .bind' .any fun fit _ => .bind' (P := fun r : Vec N => ∀ i, .fin 0 ≤ r i ∧ r i < .fin 1)
      (.tabM (P := fun _ (v : Fl) => .fin 0 ≤ v ∧ v < .fin 1) fun i => .rand fun r h0 h1 => ⟨h0, h1⟩) fun r hr => .pure' fun i => hT _ (hr i).1 (hr i).2
  · exact .bind' .any fun _ _ => .bind' .any fun _ _ => .bind' .any fun _ _ => .bind' .any fun _ _ => .bind' .any fun r _ =>
      .pure' fun i => nextType_isType _ _

/-- After the first iteration it has, in any arithmetic. -/
theorem C73_types_later (B : Box D) (N : ℕ) (p : Par) {env : Env (Vec D)} {ncb : ℕ} {hist} {w : World (Vec D)}
    (ht : (alg B N p).Trace env ncb hist w) {pre r rest} (he : hist = pre ++ r :: rest) (hl : rest ≠ []) :
    ∀ i, IsType (St.pti (N := N) (D := D) r.1 i) := by
  refine ht.after (P := fun n (s : St D N) => 0 < n → ∀ i, IsType (s.pti i)) (.mono .any fun _ _ h => absurd h (lt_irrefl 0))
    (fun _ s xb fxb _ => ?_) he (List.length_pos_iff.2 hl)
  exact .bind' .any fun _ _ => .bind' .any fun _ _ => .bind' .any fun _ _ => .bind' .any fun _ _ => .bind' .any fun r _ =>
      .pure' fun _ i => nextType_isType _ _

/-- Runs do not raise. -/
theorem safe {env : Env (Vec D)} {B : Box D} (hE : env.Calm) (hB : B.Proper) (hN : 0 < N) (p : Par) (hp : unifErr piF (Fl.ofNat 2 * piF) = none) : (alg B N p).Safe env := by
  refine ⟨fun _ => True, .bind' (Total.defaultNumpyInit hE hB hN) fun r hr => .bind' (Total.evalRows hE hN) fun fit hf => .bindT (by ends) fun r =>
    .pure' ⟨trivial, first_arr hN hf⟩, fun s xb fxb _ => ?_⟩
  show Ends env (iter B p s xb fxb)
  have hu : unifErr (-1) 1 = none := by decide +kernel
  have h1 : ∀ pti pop xb, Ends env (strategies (N := N) p pti pop xb) := fun pti pop xb => by
    unfold strategies drawFor
    ends
  have h2 : ∀ new, Ends env (fix (N := N) B p new) := fun new => by
    unfold fix
    ends
  unfold iter
  ends

/-! ### Normalised coordinates -/

omit [Arith] in
/-- Without rounding, the two conversions are inverse to each other where the bounds differ. -/
theorem C72_round_trip (fn : Fn → Fl → Fl) (B : Box D) (x : Vec D)
    (hfin : ∀ i, ∃ lo hi v, lo ≠ hi ∧ B.lo i = .fin lo ∧ B.hi i = .fin hi ∧ x i = .fin v) :
    (letI := exactArith fn; toReal B (fromReal B x) = x ∧ fromReal B (toReal B x) = x) := by
  have h0 : ∀ a b : ℚ, b ≠ 0 → Fl.divX (.fin a) (.fin b) = .fin (a / b) := fun a b hb => by simp [Fl.divX, hb]
  constructor <;> funext j <;> obtain ⟨lo, hi, v, hne, h1, h2, h3⟩ := hfin j <;> have hd : hi - lo ≠ 0 := sub_ne_zero.2 (Ne.symm hne)
  · simp only [toReal, fromReal, h1, h2, h3]
    change Fl.addX (.fin lo) (Fl.mulX (Fl.mulX (Fl.addX (Fl.addX (Fl.divX (.fin (2 * (v + -lo))) (.fin (hi + -lo))) (.fin (-1))) (.fin 1)) (.fin (1 / 2))) (.fin (hi + -lo))) = _
    rw [← sub_eq_add_neg hi lo, h0 _ _ hd]
    change Fl.fin (lo + (2 * (v + -lo) / (hi - lo) + -1 + 1) * (1 / 2) * (hi - lo)) = _
    congr 1
    field_simp
    ring
  · simp only [toReal, fromReal, h1, h2, h3]
    change Fl.addX (Fl.divX (.fin (2 * (lo + (v + 1) * (1 / 2) * (hi + -lo) + -lo))) (.fin (hi + -lo))) (.fin (-1)) = _
    rw [← sub_eq_add_neg hi lo, h0 _ _ hd]
    change Fl.fin (2 * (lo + (v + 1) * (1 / 2) * (hi - lo) + -lo) / (hi - lo) + -1) = _
    congr 1
    field_simp
    ring

namespace Ex
open NiaPy.Ex

/-- The default parameters. -/
def par : Par := ⟨.fin (3 / 10), true, false⟩

/-- The first mantis starts at -2, the second one at 1/4; both forage, displaced by 1. -/
def draws : Draws where
  unif k := if k = 0 then -2 else if k = 1 then 1 / 4 else 1

/-- One iteration. -/
def env : Env (Vec 1) := NiaPy.Ex.env sphere .minimization none (some 1) none draws fun _ _ x i => clip1 (x i)

omit [Arith] in
/-- The repair function repairs. -/
theorem env_repairs (rng k x) : (NiaPy.Ex.box 1).NotOut (env.repairFn rng k x) := by
  intro i
  change ¬ clip1 (x i) < .fin (-2) ∧ ¬ .fin 2 < clip1 (x i)
  cases x i with
  | fin q => simp [clip1, Fl.fin_lt_fin]
  | _ => decide

end Ex

omit [Arith] in
/-- C72 is false: with `normalize_space=True` the solution returned is in normalised coordinates and was never evaluated, if the best
solution is one of the initial population, ... -/
theorem C72_returned_false : ∃ env : Env (Vec 1), NoNaN env ∧ (@alg NiaPy.Ex.arith 1 (NiaPy.Ex.box 1) 2 { Ex.par with norm := true }).ReturnsOther env :=
  ⟨Ex.env, NiaPy.Ex.sphere_noNaN rfl, .of (fuel := 5) (by decide +kernel)⟩

omit [Arith] in
/-- ... and with `use_reflection=False` in addition, solutions out of bounds are evaluated: the candidates are repaired at the
bounds of the problem although they are in normalised coordinates. -/
theorem C72_bounds_false : ∃ env : Env (Vec 1), NoNaN env ∧ (∀ rng k x, (NiaPy.Ex.box 1).NotOut (env.repairFn rng k x)) ∧
    (@alg NiaPy.Ex.arith 1 (NiaPy.Ex.box 1) 2 ⟨.fin (3 / 10), false, true⟩).EvaluatesOutside (NiaPy.Ex.box 1) env :=
  ⟨Ex.env, NiaPy.Ex.sphere_noNaN rfl, Ex.env_repairs, .of (fuel := 5) (by decide +kernel)⟩

omit [Arith] in
/-- C58 is false of the mantis search algorithm: with `max_evals` at most twice the population size, it returns `+inf` although it
has evaluated solutions. -/
theorem C58_mshoa_false : ∃ env : Env (Vec 1), NoNaN env ∧ (@alg NiaPy.Ex.arith 1 (NiaPy.Ex.box 1) 2 Ex.par).LosesBest env :=
  ⟨NiaPy.Ex.env2 2 (some 2), NiaPy.Ex.env2_noNaN _ _, .of (fuel := 5) (f := .pinf) (b := .fin (1 / 16)) (by decide +kernel) (by simp)⟩

example : ∃ hist w, (@alg NiaPy.Ex.arith 1 (NiaPy.Ex.box 1) 3 Ex.par).Trace NiaPy.Ex.env2 1 hist w ∧ hist.length = 3 := by
  letI := NiaPy.Ex.arith
  exact (verified (NiaPy.Ex.box 1) 3 Ex.par rfl).exists_trace NiaPy.Ex.env2 (P := fun _ => True) (sh := True) (fun C _ h2 h3 _ _ => ⟨h2, fun x _ => by rw [h3]; trivial⟩) (fuel := 5) (by decide +kernel)

end NiaPy.MSHOA
