import Verif.Spec.Ads
import Mathlib.Analysis.Complex.ExponentialBounds

/-!
# The temperature sensors
-/

namespace PyCNC.Props

open PyCNC Spec

/-- The resistance at infinite temperature is less than 0.17 Ohm. -/
theorem thRinf_lt : thRinf < 0.17 := by
  have h1 : (0.17 : ℝ) = 100000 * 0.0000017 := by norm_num
  unfold thRinf thR0 thBeta thT0 celsiusToKelvin
  rw [h1]
  refine mul_lt_mul_of_pos_left ?_ (by norm_num)
  have h2 : (-4092 : ℝ) / (25 + 273.15) ≤ -13.7 := by norm_num
  refine (Real.exp_le_exp.2 h2).trans_lt ?_
  -- exp 13.7 > 1 / 0.0000017
  have h3 : Real.exp (-13.7) = (Real.exp 13.7)⁻¹ := Real.exp_neg _
  rw [h3]
  have h4 : Real.exp 13.7 = Real.exp 1 ^ 13 * Real.exp 0.7 := by
    rw [← Real.exp_nat_mul, ← Real.exp_add]; norm_num
  have h5 : (2.7182818283 : ℝ) < Real.exp 1 := Real.exp_one_gt_d9
  have h6 : (1.7 : ℝ) ≤ Real.exp 0.7 := by
    have := Real.add_one_le_exp (0.7 : ℝ); linarith
  have h7 : (2.7182818283 : ℝ) ^ 13 ≤ Real.exp 1 ^ 13 := by gcongr
  have h8 : (0.0000017 : ℝ)⁻¹ < Real.exp 13.7 := by
    rw [h4]
    calc (0.0000017 : ℝ)⁻¹ < 2.7182818283 ^ 13 * 1.7 := by norm_num
      _ ≤ _ := by gcongr
  have := inv_lt_inv₀ (by positivity : (0 : ℝ) < Real.exp 13.7) (by norm_num : (0 : ℝ) < 0.0000017⁻¹)
  rw [inv_inv] at this
  exact this.2 h8

theorem thRinf_pos : 0 < thRinf := by
  unfold thRinf thR0; positivity

/-- The voltage divider: the resistance grows with the voltage. -/
theorem divider_strictMono {v w : ℝ} (hvw : v < w) (hw : w < thVcc) :
    v * thR1 / (thVcc - v) < w * thR1 / (thVcc - w) := by
  have h1 : 0 < thVcc - w := by linarith
  have h2 : 0 < thR1 := by unfold thR1; norm_num
  rw [div_lt_div_iff₀ (by linarith) h1]
  have h3 : 0 < thVcc := by unfold thVcc; norm_num
  nlinarith [mul_pos (mul_pos h2 h3) (sub_pos.2 hvw)]

theorem thermistor_arg {v : ℝ} (hv : 1 / 8000 ≤ v) (hw : v < thVcc) :
    1 < v * thR1 / (thVcc - v) / thRinf := by
  rw [lt_div_iff₀ thRinf_pos, one_mul, lt_div_iff₀ (by linarith)]
  have h1 := thRinf_lt
  have h0 := thRinf_pos
  have h2 : thVcc - v ≤ 3.3 := by unfold thVcc; linarith
  have h3 : thRinf * (thVcc - v) ≤ 0.17 * 3.3 := by
    apply mul_le_mul h1.le h2 (by linarith) (by norm_num)
  unfold thR1
  linarith

theorem thermistor_value {v : ℝ} (hv : 1 / 8000 ≤ v) (hw : v < thVcc) :
    thermistor v =
      .ok (thBeta / Real.log (v * thR1 / (thVcc - v) / thRinf) - celsiusToKelvin) := by
  have h1 := thermistor_arg hv hw
  have h2 := Real.log_pos h1
  unfold thermistor
  rw [if_neg (by linarith), if_neg (by linarith)]
  simp only
  rw [if_neg (by linarith), if_neg h2.ne']

/-- **C53.** For every code of the converter: a voltage outside the range of the divider, at most 0 V
or at least 3.3 V, is reported as `IOError`; otherwise the result is a temperature above absolute
zero, and a higher code gives a strictly lower temperature. -/
theorem C53_thermistor (n : Int) :
    (n ≤ 0 ∨ 26400 ≤ n → thermistor (adcVoltage n) = .error .io) ∧
    (0 < n → n < 26400 → ∃ t, thermistor (adcVoltage n) = .ok t ∧ -273.15 < t ∧
      ∀ m t', n < m → thermistor (adcVoltage m) = .ok t' → t' < t) := by
  refine ⟨fun h => ?_, fun h0 h1 => ?_⟩
  · unfold thermistor
    rcases h with h | h
    · have h2 : adcVoltage n ≤ 0 := by
        unfold adcVoltage
        have : (n : ℝ) ≤ 0 := by exact_mod_cast h
        linarith
      rw [if_pos h2]
      split <;> rfl
    · have h2 : adcVoltage n ≥ thVcc := by
        unfold adcVoltage thVcc
        have : (26400 : ℝ) ≤ n := by exact_mod_cast h
        linarith
      rw [if_pos h2]
  · have h1 : adcVoltage n < thVcc := by
      unfold adcVoltage thVcc
      have : (n : ℝ) < 26400 := by exact_mod_cast h1
      linarith
    have hn : (1 : ℝ) / 8000 ≤ adcVoltage n := by
      unfold adcVoltage
      have : (1 : ℝ) ≤ n := by exact_mod_cast h0
      linarith
    refine ⟨_, thermistor_value hn h1, ?_, ?_⟩
    · have := Real.log_pos (thermistor_arg hn h1)
      have hb : 0 < thBeta := by unfold thBeta; norm_num
      have := div_pos hb this
      unfold celsiusToKelvin
      linarith
    · intro m t' hnm ht'
      have hm : (n : ℝ) < m := by exact_mod_cast hnm
      have hv : adcVoltage n < adcVoltage m := by unfold adcVoltage; linarith
      by_cases hw : adcVoltage m < thVcc
      · rw [thermistor_value (by linarith) hw] at ht'
        cases ht'
        have h2 := Real.log_pos (thermistor_arg hn h1)
        have h3 : Real.log (adcVoltage n * thR1 / (thVcc - adcVoltage n) / thRinf) <
            Real.log (adcVoltage m * thR1 / (thVcc - adcVoltage m) / thRinf) := by
          refine Real.log_lt_log (by linarith [thermistor_arg hn h1]) ?_
          exact div_lt_div_of_pos_right (divider_strictMono hv hw) thRinf_pos
        have hb : 0 < thBeta := by unfold thBeta; norm_num
        have := div_lt_div_of_pos_left hb h2 h3
        linarith
      · rw [thermistor, if_pos (not_lt.1 hw)] at ht'
        cases ht'

/-- The same for every voltage from one least significant bit of the converter on: the temperature
is a strictly decreasing function of the voltage. -/
theorem C53_voltage {v w : ℝ} (hv : 1 / 8000 ≤ v) (hvw : v < w) (hw : w < 3.3) :
    ∃ t u, thermistor v = .ok t ∧ thermistor w = .ok u ∧ -273.15 < u ∧ u < t := by
  change w < thVcc at hw
  have h1 := thermistor_arg hv (hvw.trans hw)
  have h2 := Real.log_pos h1
  have h3 := Real.log_pos (thermistor_arg (hv.trans hvw.le) hw)
  have hb : 0 < thBeta := by unfold thBeta; norm_num
  refine ⟨_, _, thermistor_value hv (hvw.trans hw), thermistor_value (hv.trans hvw.le) hw, ?_, ?_⟩
  · have := div_pos hb h3
    unfold celsiusToKelvin
    linarith
  · have h4 := Real.log_lt_log (by linarith) (div_lt_div_of_pos_right
      (divider_strictMono hvw hw) thRinf_pos)
    have := div_lt_div_of_pos_left hb h2 h4
    linarith

/-- Code 12000 is 1.5 V. -/
example : (0 : Int) < 12000 ∧ (12000 : Int) < 26400 ∧ adcVoltage 12000 = 1.5 := by
  unfold adcVoltage; norm_num

/-- **C60.** The formula inverts the circuit: a 100 kOhm thermistor with B = 4092 K at `t` degrees
Celsius, in series with 4.7 kOhm at 3.3 V, is reported as `t`. -/
theorem C60_inverse {t : ℝ} (ht : -273.15 < t) (r : ℝ)
    (hr : r = 100000 * Real.exp (4092 * (1 / (t + 273.15) - 1 / 298.15))) :
    thermistor (3.3 * r / (r + 4700)) = .ok t := by
  have hr0 : 0 < r := by rw [hr]; positivity
  have hk : 0 < t + 273.15 := by linarith
  have h0 := thRinf_pos
  have hlt : 3.3 * r / (r + 4700) < thVcc := by
    rw [div_lt_iff₀ (by linarith)]; unfold thVcc; linarith
  have hpos : 0 < 3.3 * r / (r + 4700) := by positivity
  have hres : 3.3 * r / (r + 4700) * thR1 / (thVcc - 3.3 * r / (r + 4700)) = r := by
    unfold thVcc thR1
    have : (3.3 : ℝ) - 3.3 * r / (r + 4700) = 3.3 * 4700 / (r + 4700) := by field_simp; ring
    rw [this]
    field_simp
  have hq : r / thRinf = Real.exp (4092 / (t + 273.15)) := by
    rw [div_eq_iff h0.ne', hr]
    unfold thRinf thR0 thBeta thT0 celsiusToKelvin
    rw [mul_left_comm, ← Real.exp_add]
    congr 2
    norm_num
    ring
  unfold thermistor
  rw [if_neg (by linarith), if_neg (by linarith)]
  simp only
  rw [hres, hq, Real.log_exp, if_neg (not_le.2 (Real.exp_pos _)),
    if_neg (by positivity : ¬ (4092 / (t + 273.15) = 0))]
  unfold thBeta celsiusToKelvin
  congr 1
  field_simp
  ring

/-- At 25 degrees the thermistor has 100 kOhm. -/
example : (-273.15 : ℝ) < 25 ∧
    (100000 : ℝ) = 100000 * Real.exp (4092 * (1 / (25 + 273.15) - 1 / 298.15)) := by
  norm_num

/-- Below the resolution of the converter the formula gives temperatures below absolute zero: the
property needs the converter. -/
theorem C53_tiny_voltage : ∃ v t, 0 < v ∧ v < 1 / 8000 ∧ thermistor v = .ok t ∧
    t < -273.15 := by
  have h0 := thRinf_pos
  have h1 := thRinf_lt
  have hd : 0 < 9400 + thRinf := by linarith
  refine ⟨thVcc * thRinf / (9400 + thRinf), thBeta / Real.log (1 / 2) - celsiusToKelvin, ?_, ?_,
    ?_, ?_⟩
  · unfold thVcc; positivity
  · rw [div_lt_div_iff₀ hd (by norm_num)]
    unfold thVcc
    nlinarith
  · have hlt : thVcc * thRinf / (9400 + thRinf) < thVcc := by
      rw [div_lt_iff₀ hd]; unfold thVcc; nlinarith
    have hpos : 0 < thVcc * thRinf / (9400 + thRinf) := by unfold thVcc; positivity
    have hr : thVcc * thRinf / (9400 + thRinf) * thR1 /
        (thVcc - thVcc * thRinf / (9400 + thRinf)) / thRinf = 1 / 2 := by
      have : thVcc - thVcc * thRinf / (9400 + thRinf) = thVcc * 9400 / (9400 + thRinf) := by
        field_simp; ring
      rw [this]
      unfold thVcc thR1
      field_simp
      norm_num
    have hl : Real.log (1 / 2) < 0 := Real.log_neg (by norm_num) (by norm_num)
    unfold thermistor
    rw [if_neg (by linarith), if_neg (by linarith)]
    simp only
    rw [hr, if_neg (by norm_num), if_neg hl.ne]
  · have hl : Real.log (1 / 2) < 0 := Real.log_neg (by norm_num) (by norm_num)
    have hb : 0 < thBeta := by unfold thBeta; norm_num
    have := div_neg_of_pos_of_neg hb hl
    unfold celsiusToKelvin
    linarith

/-! ### The converter -/

/-- The results of a sequence of calls of `measure`, each with a channel and the behaviour of the
bus during the call. -/
def adcRun (a : Adc) : List (Int × List I2cReply) → List AdcResult
  | [] => []
  | (ch, io) :: rest => (a.measure ch io).1 :: adcRun (a.measure ch io).2 rest

/-- The bus reports no error. -/
def BusOk (calls : List (Int × List I2cReply)) : Prop := ∀ call ∈ calls, none ∉ call.2

theorem readResult_ok {a : Adc} {io : List I2cReply} (h : none ∉ io) :
    (∃ v, (a.readResult io).1 = .code v ∧ (a.readResult io).2.locked = false ∧
      -32768 ≤ v ∧ v < 32768) ∨ (a.readResult io).1 = .polling := by
  match io with
  | [] => exact .inr rfl
  | [some _] => exact .inr rfl
  | some _ :: some v :: _ =>
    refine .inl ⟨_, rfl, rfl, ?_, ?_⟩
    · have := BitVec.le_toInt v; simpa using this
    · have := BitVec.toInt_lt (x := v); simpa using this
  | none :: _ => simp at h
  | some _ :: none :: _ => simp at h

theorem poll_ok {a : Adc} : ∀ {io : List I2cReply}, none ∉ io →
    (∃ v, (a.poll io).1 = .code v ∧ (a.poll io).2.locked = false ∧
      -32768 ≤ v ∧ v < 32768) ∨ (a.poll io).1 = .polling
  | [], _ => .inr rfl
  | [some _], _ => .inr rfl
  | some _ :: some v :: rest, h => by
    have hr : none ∉ rest := fun hn => h (by simp [hn])
    rw [Adc.poll]
    split
    · exact readResult_ok hr
    · exact poll_ok hr
  | none :: _, h => by simp at h
  | some _ :: none :: _, h => by simp at h

theorem measure_ok {a : Adc} (ha : a.locked = false) {ch : Int} {io : List I2cReply}
    (hio : none ∉ io) :
    ((a.measure ch io).1 = .badChannel ∧ (a.measure ch io).2.locked = false) ∨
    (a.measure ch io).1 = .polling ∨
    ∃ v, (a.measure ch io).1 = .code v ∧ (a.measure ch io).2.locked = false ∧
      -32768 ≤ v ∧ v < 32768 := by
  unfold Adc.measure
  by_cases hch : ch < 0 ∨ ch > 3
  · rw [if_pos hch]; exact .inl ⟨rfl, ha⟩
  · rw [if_neg hch, if_neg (by simp [ha])]
    match io with
    | [] => exact .inr (.inl rfl)
    | none :: _ => simp at hio
    | some _ :: tl =>
      simp only
      rcases poll_ok (io := tl) (fun hn => hio (by simp [hn])) with e | e
      · exact .inr (.inr e)
      · exact .inr (.inl e)

/-- **C54, partial.** While the bus reports no error, a call returns a code of 16 bits or refuses
the channel, as long as the calls before it have come to an end; no call blocks.
Missing: histories in which the bus reports an error, `C54_refuted`. -/
theorem C54_available_partial (a : Adc) (ha : a.locked = false)
    (calls : List (Int × List I2cReply)) (hb : BusOk calls)
    (n : ℕ) (hend : ∀ m < n, (adcRun a calls)[m]? ≠ some .polling) :
    ∀ r, (adcRun a calls)[n]? = some r →
      r = .badChannel ∨ r = .polling ∨ ∃ v, r = .code v ∧ -32768 ≤ v ∧ v < 32768 := by
  induction calls generalizing n a with
  | nil => intro r hr; simp [adcRun] at hr
  | cons call rest ih =>
    obtain ⟨ch, io⟩ := call
    have hio : none ∉ io := hb (ch, io) (by simp)
    have hrest : BusOk rest := fun c hc => hb c (by simp [hc])
    have hm := measure_ok ha (ch := ch) hio
    intro r hr
    cases n with
    | zero =>
      simp only [adcRun, List.getElem?_cons_zero, Option.some.injEq] at hr
      subst hr
      rcases hm with ⟨e, -⟩ | e | ⟨v, e, -, h1, h2⟩
      · exact .inl e
      · exact .inr (.inl e)
      · exact .inr (.inr ⟨v, e, h1, h2⟩)
    | succ n =>
      have hs : (a.measure ch io).2.locked = false := by
        rcases hm with ⟨-, e⟩ | e | ⟨v, -, e, -⟩
        · exact e
        · exact absurd (by simp [adcRun, e]) (hend 0 (by simp))
        · exact e
      simp only [adcRun, List.getElem?_cons_succ] at hr
      refine ih _ hs hrest n (fun m hm' => ?_) r hr
      have := hend (m + 1) (by omega)
      simpa only [adcRun, List.getElem?_cons_succ] using this

/-- Two complete measurements, the first after one more poll. -/
example : adcRun ⟨false, []⟩ [(0, [some 0, some 0, some 0, some 0, some 0x8000, some 0, some 12000]),
    (1, [some 0, some 0, some 0x8000, some 0, some 0xFFFF])] = [.code 12000, .code (-1)] := by
  decide

theorem readResult_error {a : Adc} {io : List I2cReply} (h : (a.readResult io).1 = .ioError) :
    (a.readResult io).2.locked = a.locked := by
  match io with
  | [] => rfl
  | [some _] => rfl
  | some _ :: some v :: _ => cases h
  | none :: _ => rfl
  | some _ :: none :: _ => rfl

theorem poll_error {a : Adc} : ∀ {io : List I2cReply}, (a.poll io).1 = .ioError →
    (a.poll io).2.locked = a.locked
  | [], _ => rfl
  | [some _], _ => rfl
  | some _ :: some v :: rest, h => by
    rw [Adc.poll] at h ⊢
    split at h
    · rw [if_pos ‹_›]; exact readResult_error h
    · rw [if_neg ‹_›]; exact poll_error h
  | none :: _, _ => rfl
  | some _ :: none :: _, _ => rfl

/-- After an error of the bus every later call with a valid channel blocks, whatever the bus does
from then on. -/
theorem C54_blocked_after_error (a : Adc) (ch : Int) (io : List I2cReply)
    (h : (a.measure ch io).1 = .ioError) (calls : List (Int × List I2cReply)) :
    adcRun (a.measure ch io).2 calls =
      calls.map fun call => if call.1 < 0 ∨ call.1 > 3 then .badChannel else .blocked := by
  have hs : (a.measure ch io).2.locked = true := by
    unfold Adc.measure at h ⊢
    by_cases hch : ch < 0 ∨ ch > 3
    · rw [if_pos hch] at h; cases h
    · rw [if_neg hch] at h ⊢
      by_cases hl : a.locked = true
      · rw [if_pos hl] at h; cases h
      · rw [if_neg hl] at h ⊢
        match io with
        | [] => cases h
        | none :: _ => rfl
        | some _ :: tl => exact poll_error h
  revert hs
  generalize (a.measure ch io).2 = b
  intro hs
  induction calls with
  | nil => rfl
  | cons call rest ih =>
    obtain ⟨ch', io'⟩ := call
    have e : b.measure ch' io' =
        (if ch' < 0 ∨ ch' > 3 then .badChannel else .blocked, b) := by
      unfold Adc.measure
      rw [if_pos hs]
      split <;> rfl
    rw [adcRun, e, List.map_cons]
    exact congrArg₂ List.cons rfl ih

/-- **C54 is false.** One error of the bus, and the next measurement blocks for ever. -/
theorem C54_refuted : ∃ calls : List (Int × List I2cReply),
    adcRun ⟨false, []⟩ calls = [.ioError, .blocked] ∧
    ∀ more, adcRun ⟨false, []⟩ (calls ++ List.replicate more (0, [])) =
      .ioError :: List.replicate (more + 1) .blocked := by
  refine ⟨[(0, [none]), (0, [])], by decide, fun more => ?_⟩
  have h := C54_blocked_after_error ⟨false, []⟩ 0 [none] (by decide)
    ((0, []) :: List.replicate more (0, []))
  have e : (Adc.measure ⟨false, []⟩ 0 [none]).1 = .ioError := by decide
  simp only [List.cons_append, List.nil_append]
  rw [adcRun, e, h]
  simp [List.replicate_succ]

/-! ### The converter chip -/

/-- The chip is converting for this call, or has just done so and nothing else. -/
structure Ours (ch : Fin 4) (before : List Conversion) (d : AdsChip) : Prop where
  mux : d.config.extractLsb' 12 3 = inputAgainstGround ch
  range : d.config.extractLsb' 9 3 = range4096
  state : (d.busy = true ∧ d.done = before) ∨
    (d.busy = false ∧ ∃ code, d.done = ⟨inputAgainstGround ch, range4096, code⟩ :: before)

theorem Ours.complete {ch : Fin 4} {before : List Conversion} {d : AdsChip} (h : Ours ch before d)
    (hb : d.busy = true) (code : BitVec 16) : Ours ch before (d.complete code) := by
  refine ⟨h.mux, h.range, .inr ⟨rfl, code, ?_⟩⟩
  rcases h.state with ⟨-, e⟩ | ⟨e, -⟩
  · simp only [AdsChip.complete, h.mux, h.range, e]
  · rw [hb] at e; cases e

theorem ours_select {ch : Fin 4} {before : List Conversion} {d d' : AdsChip} {p : BitVec 8}
    {r : BitVec 16} {ops : List I2cOp} {io : List I2cReply} (h : Ours ch before d)
    (hr : AdsRun d (.write [p] :: ops) (some r :: io) d') :
    ∃ d2, Ours ch before d2 ∧ d2.pointer = p ∧ AdsRun d2 ops io d' := by
  generalize e1 : I2cOp.write [p] :: ops = os at hr
  generalize e2 : some r :: io = is at hr
  induction hr with
  | nil => cases e1
  | complete code hb _ ih => exact ih (h.complete hb code) e1 e2
  | @select d0 _ _ _ q r' hr' _ =>
    cases e1; cases e2
    exact ⟨{ d0 with pointer := p }, ⟨h.mux, h.range, h.state⟩, rfl, hr'⟩
  | configure => cases e1
  | readConfig => cases e1
  | readResult => cases e1
  | fail => cases e2

theorem ours_config {ch : Fin 4} {before : List Conversion} {d d' : AdsChip}
    {r : BitVec 16} {ops : List I2cOp} {io : List I2cReply} (h : Ours ch before d)
    (hp : d.pointer = 1) (hr : AdsRun d (.read 2 :: ops) (some r :: io) d') :
    ∃ d2, Ours ch before d2 ∧ (r.getLsbD 15 = true → d2.busy = false) ∧ AdsRun d2 ops io d' := by
  generalize e1 : I2cOp.read 2 :: ops = os at hr
  generalize e2 : some r :: io = is at hr
  induction hr with
  | nil => cases e1
  | complete code hb _ ih => exact ih (h.complete hb code) hp e1 e2
  | select => cases e1
  | configure => cases e1
  | readConfig r' _ hbit hr' _ =>
    cases e1; cases e2
    refine ⟨_, h, fun ht => ?_, hr'⟩
    rw [ht] at hbit
    simpa using hbit.symm
  | readResult c rest h0 => rw [hp] at h0; cases h0
  | fail => cases e2

theorem ours_result {ch : Fin 4} {before : List Conversion} {d d' : AdsChip}
    {r : BitVec 16} (h : Ours ch before d) (hb : d.busy = false)
    (hp : d.pointer = 0) (hr : AdsRun d [.read 2] [some r] d') :
    d'.busy = false ∧ d'.done = ⟨inputAgainstGround ch, range4096, r⟩ :: before := by
  cases hr with
  | complete code hb' _ => rw [hb] at hb'; cases hb'
  | readConfig _ h0 => rw [hp] at h0; cases h0
  | readResult c rest _ hd hr' =>
    obtain ⟨e, -⟩ | ⟨-, code, hc⟩ := h.state
    · rw [hb] at e; cases e
    · rw [hd] at hc
      cases hr' with
      | complete code hb' _ => rw [hb] at hb'; cases hb'
      | nil =>
        refine ⟨hb, ?_⟩
        rw [hd, hc]
        injection hc with h1 h2
        rw [h1]

theorem ours_idle {ch : Fin 4} {before : List Conversion} {d d' : AdsChip} {p : BitVec 8}
    {r : BitVec 16} {ops : List I2cOp} {io : List I2cReply} (h : Ours ch before d)
    (hb : d.busy = false) (hr : AdsRun d (.write [p] :: ops) (some r :: io) d') :
    ∃ d2, Ours ch before d2 ∧ d2.busy = false ∧ d2.pointer = p ∧ AdsRun d2 ops io d' := by
  cases hr with
  | complete code hb' _ => rw [hb] at hb'; cases hb'
  | select _ _ hr' => exact ⟨{ d with pointer := p }, ⟨h.mux, h.range, h.state⟩, hb, rfl, hr'⟩

theorem readResult_ours {ch : Fin 4} {before : List Conversion} {d' : AdsChip} {a a' : Adc}
    {io : List I2cReply} {v : Int} (hm : a.readResult io = (.code v, a')) :
    ∃ ops, a'.log = ops.reverse ++ a.log ∧ ∀ d, Ours ch before d → d.busy = false →
      AdsRun d ops (io.take ops.length) d' →
      d'.busy = false ∧ ∃ code, v = code.toInt ∧
        d'.done = ⟨inputAgainstGround ch, range4096, code⟩ :: before := by
  match io, hm with
  | some _ :: some w :: rest, hm =>
    simp only [Adc.readResult, Prod.mk.injEq, AdcResult.code.injEq] at hm
    obtain ⟨hv, rfl⟩ := hm
    refine ⟨[.write [0], .read 2], rfl, fun d h hb hr => ?_⟩
    simp only [List.length_cons, List.length_nil, List.take_succ_cons, List.take_zero] at hr
    obtain ⟨d2, o2, hb2, hp2, hr2⟩ := ours_idle h hb hr
    obtain ⟨h1, h2⟩ := ours_result o2 hb2 hp2 hr2
    exact ⟨h1, w, hv.symm, h2⟩

theorem ready_bit (w : BitVec 16) (h : w &&& 0x8000#16 ≠ 0#16) : w.getLsbD 15 = true := by
  by_contra hn
  apply h
  apply BitVec.eq_of_getLsbD_eq
  intro i hi
  rw [BitVec.getLsbD_and]
  by_cases h15 : i = 15
  · subst h15
    rw [Bool.not_eq_true] at hn
    rw [hn]
    rfl
  · have : (0x8000#16).getLsbD i = false := by
      revert h15 hi; revert i; decide
    simp [this]

theorem poll_ours {ch : Fin 4} {before : List Conversion} {d' : AdsChip} {a' : Adc} {v : Int} :
    ∀ {io : List I2cReply} {a : Adc}, a.poll io = (.code v, a') →
    ∃ ops, a'.log = ops.reverse ++ a.log ∧ ∀ d, Ours ch before d →
      AdsRun d ops (io.take ops.length) d' →
      d'.busy = false ∧ ∃ code, v = code.toInt ∧
        d'.done = ⟨inputAgainstGround ch, range4096, code⟩ :: before
  | some _ :: some w :: rest, a, hm => by
    rw [Adc.poll] at hm
    split at hm
    · rename_i hw
      obtain ⟨ops, hl, H⟩ := readResult_ours (ch := ch) (before := before) (d' := d') hm
      refine ⟨.write [1] :: .read 2 :: ops, by simp [hl, Adc.op], fun d h hr => ?_⟩
      simp only [List.length_cons, List.take_succ_cons] at hr
      obtain ⟨d2, o2, hp2, hr2⟩ := ours_select h hr
      obtain ⟨d3, o3, hb3, hr3⟩ := ours_config o2 hp2 hr2
      exact H d3 o3 (hb3 (ready_bit w hw)) hr3
    · obtain ⟨ops, hl, H⟩ := poll_ours (ch := ch) (before := before) (d' := d') hm
      refine ⟨.write [1] :: .read 2 :: ops, by simp [hl, Adc.op], fun d h hr => ?_⟩
      simp only [List.length_cons, List.take_succ_cons] at hr
      obtain ⟨d2, o2, hp2, hr2⟩ := ours_select h hr
      obtain ⟨d3, o3, -, hr3⟩ := ours_config o2 hp2 hr2
      exact H d3 o3 hr3

theorem config_bits (ch : Fin 4) :
    ((Adc.config ch).extractLsb' 8 8 ++ (Adc.config ch).extractLsb' 0 8 : BitVec 16).extractLsb' 12 3 =
      inputAgainstGround ch ∧
    ((Adc.config ch).extractLsb' 8 8 ++ (Adc.config ch).extractLsb' 0 8 : BitVec 16).extractLsb' 9 3 =
      range4096 ∧
    (((Adc.config ch).extractLsb' 8 8).getLsbD 7 && ((Adc.config ch).extractLsb' 8 8).getLsbD 0) =
      true := by
  revert ch; decide

/-- **C62.** A call of `measure` that returns has made the chip do exactly one conversion, of the
requested input against ground in the range of 4.096 V, and returns the result of this conversion,
converted with this range.  The chip is idle then.  The chip may take any time for the conversion and
give any result. -/
theorem C62_measure {a a' : Adc} {ch : Fin 4} {io : List I2cReply} {v : Int} {d d' : AdsChip}
    {ops : List I2cOp} (hm : a.measure ch io = (.code v, a')) (hl : a'.log = ops.reverse ++ a.log)
    (hd : d.busy = false) (hr : AdsRun d ops (io.take ops.length) d') :
    d'.busy = false ∧ ∃ code, d'.done = ⟨inputAgainstGround ch, range4096, code⟩ :: d.done ∧
      v = code.toInt ∧ adcVoltage v = 4.096 * code.toInt / 32768 := by
  unfold Adc.measure at hm
  rw [if_neg (by omega)] at hm
  split at hm
  · cases hm
  · match io, hm with
    | some r :: rest, hm =>
      simp only at hm
      obtain ⟨ops', hl', H⟩ := poll_ours (ch := ch) (before := d.done) (d' := d') hm
      have hops : ops = .write (Adc.configBytes ch) :: ops' := by
        have e : ops.reverse ++ a.log = (I2cOp.write (Adc.configBytes ch) :: ops').reverse ++ a.log := by
          rw [← hl, hl']; simp [Adc.op]
        simpa using congrArg List.reverse (List.append_cancel_right e)
      subst hops
      obtain ⟨c1, c2, c3⟩ := config_bits ch
      simp only [List.length_cons, List.take_succ_cons, Adc.configBytes] at hr
      cases hr with
      | complete code hb' _ => rw [hd] at hb'; cases hb'
      | configure hi lo _ _ hr' =>
        have o : Ours ch d.done ⟨1, (Adc.config ch).extractLsb' 8 8 ++ (Adc.config ch).extractLsb' 0 8,
            ((Adc.config ch).extractLsb' 8 8).getLsbD 7 && ((Adc.config ch).extractLsb' 8 8).getLsbD 0,
            d.done⟩ := ⟨c1, c2, .inl ⟨c3, rfl⟩⟩
        generalize (Adc.config ch).extractLsb' 8 8 = hi at *
        generalize (Adc.config ch).extractLsb' 0 8 = lo at *
        obtain ⟨h1, code, hv, h2⟩ := H _ o hr'
        refine ⟨h1, code, h2, hv, ?_⟩
        rw [hv]
        unfold adcVoltage
        ring

/-- Input 2: the conversion is running when it is asked for the first time. -/
example : let ops : List I2cOp := [.write [1, 0xE3, 0x80], .write [1], .read 2, .write [1], .read 2,
      .write [0], .read 2]
    let io : List I2cReply := [some 0, some 0, some 0x6380, some 0, some 0xE380, some 0, some 12000]
    (∃ a', Adc.measure ⟨false, []⟩ (2 : Fin 4) io = (.code 12000, a') ∧
      a'.log = ops.reverse ++ []) ∧
    AdsRun ⟨0, 0, false, []⟩ ops (io.take ops.length) ⟨0, 0xE380, false, [⟨6, 1, 12000⟩]⟩ := by
  refine ⟨⟨_, Prod.ext ?_ rfl, ?_⟩, ?_⟩
  · decide
  · decide
  refine .configure 0xE3 0x80 _ rfl ?_
  refine .select _ _ (.readConfig _ rfl ?_ ?_)
  · decide
  refine .complete 12000 (by decide) ?_
  refine .select _ _ (.readConfig _ rfl ?_ ?_)
  · decide
  refine .select _ _ (.readResult ⟨6, 1, 12000⟩ [] rfl ?_ ?_)
  · decide
  exact .nil _

/-- The operations of a complete measurement in which the chip is asked `n` times whether it has finished:
start the conversion of the input, each time select and read the configuration, and at last select and read
the result. -/
def wholeTraffic (ch : Fin 4) (n : ℕ) : List I2cOp :=
  .write [1, 0xC3 + 16 * BitVec.ofNat 8 ch, 0x80] ::
    ((List.replicate n [I2cOp.write [1], .read 2]).flatten ++ [.write [0], .read 2])

/-- No operation comes after one that has failed. -/
def Stops (ops : List I2cOp) (io : List I2cReply) : Prop := ∀ i, io[i]? = some none → ops.length ≤ i + 1

theorem Stops.cons {o : I2cOp} {ops : List I2cOp} {v : BitVec 16} {io : List I2cReply} (h : Stops ops io) :
    Stops (o :: ops) (some v :: io)
  | 0, hi => by simp at hi
  | i + 1, hi => by simpa using h i (by simpa using hi)

theorem Stops.nil (io : List I2cReply) : Stops [] io := fun _ _ => by simp

theorem Stops.one {o : I2cOp} (io : List I2cReply) : Stops [o] io := fun _ _ => by simp

theorem readResult_traffic (a : Adc) (io : List I2cReply) :
    ∃ ops, (a.readResult io).2.log = ops.reverse ++ a.log ∧ ops.length ≤ io.length ∧ Stops ops io ∧
      ops <+: [.write [0], .read 2] := by
  match io with
  | [] => exact ⟨[], rfl, by simp, .nil _, by simp⟩
  | none :: _ => exact ⟨[.write [0]], rfl, by simp, .one _, by simp⟩
  | [some _] => exact ⟨[.write [0]], rfl, by simp, .one _, by simp⟩
  | some _ :: none :: _ => exact ⟨[.write [0], .read 2], rfl, by simp, .cons (.one _), by simp⟩
  | some _ :: some _ :: _ => exact ⟨[.write [0], .read 2], rfl, by simp, .cons (.one _), by simp⟩

theorem poll_traffic : ∀ (io : List I2cReply) (a : Adc),
    ∃ ops n, (a.poll io).2.log = ops.reverse ++ a.log ∧ ops.length ≤ io.length ∧ Stops ops io ∧
      ops <+: (List.replicate n [I2cOp.write [1], .read 2]).flatten ++ [.write [0], .read 2]
  | [], a => ⟨[], 0, rfl, by simp, .nil _, by simp⟩
  | none :: _, a => ⟨[.write [1]], 1, rfl, by simp, .one _, by simp⟩
  | [some _], a => ⟨[.write [1]], 1, rfl, by simp, .one _, by simp⟩
  | some _ :: none :: _, a => ⟨[.write [1], .read 2], 1, rfl, by simp, .cons (.one _), by simp⟩
  | some _ :: some v :: rest, a => by
    rw [Adc.poll]
    split
    · obtain ⟨ops, h1, h2, h4, h3⟩ := readResult_traffic ((a.op (.write [0x01])).op (.read 2)) rest
      refine ⟨.write [1] :: .read 2 :: ops, 1, by rw [h1]; simp [Adc.op], by simpa using h2, h4.cons.cons, ?_⟩
      simpa [List.replicate_succ, List.cons_prefix_cons] using h3
    · obtain ⟨ops, n, h1, h2, h4, h3⟩ := poll_traffic rest ((a.op (.write [0x01])).op (.read 2))
      refine ⟨.write [1] :: .read 2 :: ops, n + 1, by rw [h1]; simp [Adc.op], by simpa using h2,
        h4.cons.cons, ?_⟩
      simpa [List.replicate_succ, List.cons_prefix_cons] using h3

/-- **C62, what is sent.** However a call of `measure` ends, it has done nothing on the bus but a beginning
of a complete measurement of the requested input; it does nothing after an error.  A call that does not get
the lock, or with a wrong channel, does nothing on the bus. -/
theorem C62_traffic (a : Adc) (ch : Fin 4) (io : List I2cReply) :
    (∃ ops n, (a.measure ch io).2.log = ops.reverse ++ a.log ∧ ops.length ≤ io.length ∧ Stops ops io ∧
      ops <+: wholeTraffic ch n) ∧
    (a.locked = true → (a.measure ch io).2 = a) ∧
    ∀ bad : Int, bad < 0 ∨ 3 < bad → (a.measure bad io).2 = a := by
  have hb : Adc.configBytes ch = [1, 0xC3 + 16 * BitVec.ofNat 8 ch, 0x80] := by revert ch; decide
  refine ⟨?_, ?_, ?_⟩
  · unfold Adc.measure
    rw [if_neg (by omega)]
    split
    · exact ⟨[], 0, rfl, by simp, .nil _, by simp⟩
    · match io with
      | [] => exact ⟨[], 0, rfl, by simp, .nil _, by simp⟩
      | none :: _ => exact ⟨[.write (Adc.configBytes ch)], 0, rfl, by simp, .one _, by simp [wholeTraffic, hb]⟩
      | some _ :: rest =>
        obtain ⟨ops, n, h1, h2, h4, h3⟩ := poll_traffic rest
          (Adc.op { a with locked := true } (.write (Adc.configBytes ch)))
        refine ⟨.write (Adc.configBytes ch) :: ops, n, by rw [h1]; simp [Adc.op], by simpa using h2,
          h4.cons, ?_⟩
        rw [hb]
        simpa [wholeTraffic, List.cons_prefix_cons] using h3
  · intro h
    unfold Adc.measure
    rw [if_neg (by omega), if_pos h]
  · intro bad h
    unfold Adc.measure
    rw [if_pos h]

/-- Input 2, the third operation fails: the configuration and one question have been sent. -/
example : (Adc.measure ⟨false, []⟩ (2 : Fin 4) [some 0, some 0, none, some 0]).2.log.reverse =
      [.write [1, 0xE3, 0x80], .write [1], .read 2] ∧
    [I2cOp.write [1, 0xE3, 0x80], .write [1], .read 2] <+: wholeTraffic 2 1 := by
  constructor <;> decide

end PyCNC.Props
