import Verif.Model.DetectorCall
import Verif.Props.Detector

/-!
# C86: arguments of detectors
-/

namespace PT
open Spec

namespace Spec

/-- The first value that was given. -/
def firstGiven {α : Type} : List (Option α) → α → α
  | [], x => x
  | none :: l, x => firstGiven l x
  | some y :: _, _ => y

end Spec

/-- The statement of C86: a detector can be made with every cutoff and used wherever the sample rate in effect (that of the
call, else that of the environment, else its own) allows it; it then behaves like a detector made with the values in effect. -/
def C86 (butter : ℤ → ℚ → List ℝ × List ℝ) : Prop :=
  ∀ (samplerate cutoff order : ℚ) (responsivity : ℝ) (env : Option ℚ) (a : DetArgs) (x : Sig), 0 < samplerate → 0 < cutoff →
    2 * firstGiven [a.cutoff] cutoff ≤ firstGiven [a.samplerate, env] samplerate →
    ∃ p q, detNew samplerate cutoff order responsivity = .ok p ∧
      detNew (firstGiven [a.samplerate, env] samplerate) (firstGiven [a.cutoff] cutoff) (firstGiven [a.order] order)
        (firstGiven [a.responsivity] responsivity) = .ok q ∧
      detForward butter p (some env) a x = detForward butter q none {} x

/-- C86 is false: a detector with a cutoff of 100 GHz cannot be made without giving a sample rate, although the sample rate of the
environment (1/dt, here 100 THz) would be used. -/
theorem C86_violation (butter : ℤ → ℚ → List ℝ × List ℝ) : ¬C86 butter := by
  intro h
  obtain ⟨p, -, hp, -⟩ := h detDefault.samplerate 100e9 4 1 (some 100e12) {} ⟨[], []⟩ (by norm_num [detDefault]) (by norm_num)
    (by norm_num [firstGiven])
  have : lowpassNew detDefault.samplerate 100e9 = .error .valueError := by
    unfold lowpassNew detDefault
    rw [if_neg (by norm_num), if_pos (by norm_num)]
  unfold detNew at hp
  rw [this] at hp
  cases hp

theorem lowpassNew_ok {s c : ℚ} (hs : 0 < s) (h : 2 * c ≤ s) : lowpassNew s c = .ok () := by
  unfold lowpassNew
  rw [if_neg hs.ne', if_neg]
  rw [not_lt, div_le_one hs]
  exact h

/-- C86 for detectors whose own sample rate allows for their own cutoff. Missing: other detectors, for which C86 is false. -/
theorem C86_override_partial (butter : ℤ → ℚ → List ℝ × List ℝ) (samplerate cutoff order : ℚ) (responsivity : ℝ)
    (hs : 0 < samplerate) (hc : 2 * cutoff ≤ samplerate) :
    ∃ p, detNew samplerate cutoff order responsivity = .ok p ∧ ∀ (env : Option ℚ) (a : DetArgs) (x : Sig),
      0 < firstGiven [a.samplerate, env] samplerate →
      2 * firstGiven [a.cutoff] cutoff ≤ firstGiven [a.samplerate, env] samplerate →
      ∃ q, detNew (firstGiven [a.samplerate, env] samplerate) (firstGiven [a.cutoff] cutoff) (firstGiven [a.order] order)
          (firstGiven [a.responsivity] responsivity) = .ok q ∧
        detForward butter p (some env) a x = detForward butter q none {} x ∧
        (env = none → detForward butter p none a x = detForward butter p (some env) a x) := by
  refine ⟨⟨samplerate, cutoff, toRate order, responsivity⟩, ?_, fun env a x h0 h1 =>
    ⟨⟨firstGiven [a.samplerate, env] samplerate, firstGiven [a.cutoff] cutoff, toRate (firstGiven [a.order] order),
      firstGiven [a.responsivity] responsivity⟩, ?_, ?_, ?_⟩⟩
  · unfold detNew
    rw [lowpassNew_ok hs hc]
    rfl
  · unfold detNew
    rw [lowpassNew_ok h0 h1]
    rfl
  · obtain ⟨s, c, o, r⟩ := a
    cases s <;> cases c <;> cases o <;> cases r <;> cases env <;> rfl
  · rintro rfl
    obtain ⟨s, c, o, r⟩ := a
    cases s <;> rfl

/-- C86: the same for photodetectors, with the same random numbers. -/
theorem C86_photo_partial (butter : ℤ → ℚ → List ℝ × List ℝ) (samplerate cutoff order : ℚ) (responsivity dark load : ℝ)
    (randn : (s : List ℕ) → ℕ → List (Ten s)) (hs : 0 < samplerate) (hc : 2 * cutoff ≤ samplerate) :
    ∃ p, photoNew samplerate cutoff order responsivity dark load randn = .ok p ∧ ∀ (env : Option ℚ) (a : PhotoArgs) (x : Sig),
      0 < firstGiven [a.samplerate, env] samplerate →
      2 * firstGiven [a.cutoff] cutoff ≤ firstGiven [a.samplerate, env] samplerate →
      ∃ q, photoNew (firstGiven [a.samplerate, env] samplerate) (firstGiven [a.cutoff] cutoff) (firstGiven [a.order] order)
          (firstGiven [a.responsivity] responsivity) (firstGiven [a.dark] dark) (firstGiven [a.load] load) randn = .ok q ∧
        photoForward butter p (some env) a x = photoForward butter q none {} x := by
  refine ⟨⟨⟨samplerate, cutoff, toRate order, responsivity⟩, dark, load, randn⟩, ?_, fun env a x h0 h1 =>
    ⟨⟨⟨firstGiven [a.samplerate, env] samplerate, firstGiven [a.cutoff] cutoff, toRate (firstGiven [a.order] order),
      firstGiven [a.responsivity] responsivity⟩, firstGiven [a.dark] dark, firstGiven [a.load] load, randn⟩, ?_, ?_⟩⟩
  · unfold photoNew detNew
    rw [lowpassNew_ok hs hc]
    rfl
  · unfold photoNew detNew
    rw [lowpassNew_ok h0 h1]
    rfl
  · obtain ⟨⟨s, c, o, r⟩, k, l⟩ := a
    cases s <;> cases c <;> cases o <;> cases r <;> cases k <;> cases l <;> cases env <;> rfl

/-- C86: when the cutoff in effect is above half of the sample rate in effect, the call is rejected (unless the signal cannot be
understood in the first place), even if the constructor accepted the detector. -/
theorem C86_rejected (butter : ℤ → ℚ → List ℝ × List ℝ) (p : DetParams) (env : Option ℚ) (a : DetArgs) (x y : Sig)
    (hx : x.toPower = .ok y) (h0 : 0 < firstGiven [a.samplerate, env] p.samplerate)
    (h : firstGiven [a.samplerate, env] p.samplerate < 2 * firstGiven [a.cutoff] p.cutoff) :
    detForward butter p (some env) a x = .error .valueError := by
  have e : resolveRate a.samplerate (some env) p.samplerate = firstGiven [a.samplerate, env] p.samplerate := by
    cases a.samplerate <;> cases env <;> rfl
  unfold detForward
  rw [e]
  obtain ⟨s, c, o, r⟩ := a
  cases c <;> exact (C55_nyquist _ x _ _ h0 (by simp only [firstGiven] at h ⊢; linarith) _).2.2 y hx

/-- C86: a call of a photodetector detects with the values in effect: those of the call, else those of the environment (for the sample
rate), else those of the constructor; the responsivity is applied once, before the noise. -/
theorem C86_call (butter : ℤ → ℚ → List ℝ × List ℝ) (samplerate cutoff order : ℚ) (responsivity dark load : ℝ)
    (randn : (s : List ℕ) → ℕ → List (Ten s)) (p : PhotoParams)
    (hp : photoNew samplerate cutoff order responsivity dark load randn = .ok p) (env : Option ℚ) (a : PhotoArgs) (x : Sig) :
    photoForward butter p (some env) a x = photoDetect (butter (toRate (firstGiven [a.order] order))) randn x
      (firstGiven [a.samplerate, env] samplerate) (firstGiven [a.cutoff] cutoff) (firstGiven [a.responsivity] responsivity)
      (firstGiven [a.dark] dark) (firstGiven [a.load] load) := by
  unfold photoNew detNew at hp
  cases h : lowpassNew samplerate cutoff with
  | error e => rw [h] at hp; cases hp
  | ok u =>
    rw [h] at hp
    cases hp
    obtain ⟨⟨s, c, o, r⟩, k, l⟩ := a
    cases s <;> cases env <;> cases c <;> cases o <;> cases r <;> cases k <;> cases l <;> rfl

/-- C86: a detector made without arguments filters at 20 GHz with order 4, at the sample rate of the environment or else at 160 GHz, and
scales by 1; a photodetector also adds the noise of a dark current of 0.1 nA and a load of 166 Ω. -/
theorem C86_default (butter : ℤ → ℚ → List ℝ × List ℝ) (randn : (s : List ℕ) → ℕ → List (Ten s)) (env : Option ℚ) (x : Sig) :
    detForward butter detDefault (some env) {} x = lowpassDetect (butter 4) x (env.getD 160000000000) 20000000000 1 ∧
    ∃ p, photoDefault randn = .ok p ∧
      photoForward butter p (some env) {} x =
        photoDetect (butter 4) randn x (env.getD 160000000000) 20000000000 1 (1 / 10 ^ 10) 166 := by
  have n1 : (160e9 : ℚ) = 160000000000 := by norm_num
  have n2 : (20e9 : ℚ) = 20000000000 := by norm_num
  have n3 : (1e-10 : ℝ) = 1 / 10 ^ 10 := by norm_num
  have four : toRate 4 = 4 := by decide +kernel
  have hn : detNew 160e9 20e9 4 1 = .ok ⟨160e9, 20e9, toRate 4, 1⟩ := by
    unfold detNew
    rw [lowpassNew_ok (by norm_num) (by norm_num)]
    rfl
  constructor
  · unfold detForward detDefault
    rw [n1, n2]
    cases env <;> rfl
  · refine ⟨⟨⟨160e9, 20e9, toRate 4, 1⟩, 1e-10, 166, randn⟩, by unfold photoDefault photoNew; rw [hn]; rfl, ?_⟩
    rw [C86_call butter 160e9 20e9 4 1 1e-10 166 randn _ (by unfold photoNew; rw [hn]; rfl)]
    simp only [firstGiven, four, n1, n2, n3]
    cases env <;> rfl

/-- Order and responsivity given in the call, the rest as in the constructor and the environment. -/
example (butter : ℤ → ℚ → List ℝ × List ℝ) (randn) (x : Sig) : ∃ p, photoNew 160e9 20e9 4 1 0 100 randn = .ok p ∧
    photoForward butter p (some (some 10e12)) { order := some 2, responsivity := some (1 / 2) } x =
      photoDetect (butter 2) randn x 10e12 20e9 (1 / 2) 0 100 := by
  obtain ⟨p, hp, -⟩ := C86_photo_partial butter 160e9 20e9 4 1 0 100 randn (by norm_num) (by norm_num)
  refine ⟨p, hp, ?_⟩
  rw [C86_call butter _ _ _ _ _ _ randn p hp]
  have two : toRate 2 = 2 := by decide +kernel
  simp only [firstGiven, two]

/-- In an environment with time steps of 0.1 ps. -/
example (butter : ℤ → ℚ → List ℝ × List ℝ) (x : Sig) :
    detForward butter detDefault (some (some 10e12)) {} x = lowpassDetect (butter 4) x 10e12 20e9 1 := by
  rw [(C86_default butter (fun _ _ => []) (some 10e12) x).1]
  norm_num

/-- A detector made with the defaults, used in an environment with a rate of 10 THz and with a cutoff of 100 GHz. -/
example (x : Sig) : ∃ p q, detNew 160e9 20e9 4 1 = .ok p ∧ detNew 10e12 100e9 4 (1 / 2) = .ok q ∧
    detForward (fun _ => firstOrder) p (some (some 10e12)) { cutoff := some 100e9, responsivity := some (1 / 2) } x =
      detForward (fun _ => firstOrder) q none {} x := by
  obtain ⟨p, hp, h⟩ := C86_override_partial (fun _ => firstOrder) 160e9 20e9 4 1 (by norm_num) (by norm_num)
  obtain ⟨q, hq, he, -⟩ := h (some 10e12) { cutoff := some 100e9, responsivity := some (1 / 2) } x (by norm_num [firstGiven])
    (by norm_num [firstGiven])
  exact ⟨p, q, hp, hq, he⟩

/-- In an environment with a rate of 10 GHz the same detector raises. -/
example (butter) : ∃ p, detNew 160e9 20e9 4 1 = .ok p ∧ detForward butter p (some (some 10e9)) {} ⟨[], [(1 : ℝ)]⟩ = .error .valueError := by
  obtain ⟨p, hp, -⟩ := C86_override_partial butter 160e9 20e9 4 1 (by norm_num) (by norm_num)
  refine ⟨p, hp, ?_⟩
  have : p = ⟨160e9, 20e9, toRate 4, 1⟩ := by
    unfold detNew at hp
    rw [lowpassNew_ok (by norm_num) (by norm_num)] at hp
    cases hp
    rfl
  subst this
  exact C86_rejected butter _ _ _ _ ⟨[], [(1 : ℝ)]⟩ rfl (by norm_num [firstGiven]) (by norm_num [firstGiven])

end PT
