import Verif.Rt.ChainLemmas
/-
Property C55: substitution and differentiation together.
-/
namespace VM.Props
open Spec Filter Topology
variable {n : ℕ}

/-- C55.  The chain rule.  For smooth expressions `e` and `g`: substituting `g` for `x_i` in `e` and then
differentiating by `x_j` gives, at every point where `g` has a value `b` and `e` has a value with `x_i = b`
(no square root having argument 0), the number `(∂e/∂x_i)[x_i := g] * ∂g/∂x_j`, plus
`(∂e/∂x_j)[x_i := g]` if `x_j` is not `x_i`; all derivatives and substitutions made by the library. -/
theorem C55_chain_rule (e g : Expr XReal) (i j : Fin n) (he : Smooth e) (hg : Smooth g) :
    ∃ t dt gj ei ej si sj,
      substitute (.var i) g e = .ok t ∧ diff (.var j) t = .ok dt ∧ diff (.var j) g = .ok gj ∧
      diff (.var i) e = .ok ei ∧ diff (.var j) e = .ok ej ∧
      substitute (.var i) g ei = .ok si ∧ substitute (.var i) g ej = .ok sj ∧
      ∀ (o : Order XReal) (p : Fin n → ℝ) (b : ℝ), RegularAt o p g → eval o (realPoint p) g = .ok (some b) →
        RegularAt o (Function.update p i b) e →
        ∃ x y z : ℝ, eval o (realPoint p) si = .ok (some x) ∧ eval o (realPoint p) gj = .ok (some y) ∧
          eval o (realPoint p) sj = .ok (some z) ∧
          eval o (realPoint p) dt = .ok (some (x * y + if j = i then 0 else z)) := by
  obtain ⟨t, ht, hts⟩ := substitute_smooth i hg he
  obtain ⟨dt, hdt, -⟩ := C11_derivative t j hts
  obtain ⟨gj, hgj, -⟩ := C11_derivative g j hg
  obtain ⟨ei, hei, -⟩ := C11_derivative e i he
  obtain ⟨ej, hej, -⟩ := C11_derivative e j he
  obtain ⟨si, hsi, -⟩ := substitute_smooth i hg (he.diff hei)
  obtain ⟨sj, hsj, -⟩ := substitute_smooth i hg (he.diff hej)
  refine ⟨t, dt, gj, ei, ej, si, sj, ht, hdt, hgj, hei, hej, hsi, hsj, fun o p b h1 h2 h3 => ?_⟩
  have r1 := (regularAt_iff hg o).1 h1
  have r2 := (regularAt_iff he o).1 h3
  obtain rfl : rv p g = b := by simpa [r1.eval o] using h2
  obtain ⟨a1, a2⟩ := substitute_reg r1 (r2.diff hei) hsi
  obtain ⟨b1, b2⟩ := substitute_reg r1 (r2.diff hej) hsj
  obtain ⟨c1, -⟩ := substitute_reg r1 r2 ht
  refine ⟨_, _, _, a1.eval o, (r1.diff hgj).eval o, b1.eval o, ?_⟩
  rw [(c1.diff hdt).eval, substitute_deriv r1 r2 ht hdt hgj hei hej, a2, b2]

/-- `e = log(x0) * x1`, `g = x0 + x1 * x1`, at `(1, 2)`. -/
example : ∃ (e g : Expr XReal) (p : Fin 2 → ℝ) (b : ℝ), Smooth e ∧ Smooth g ∧ RegularAt leftFirst p g ∧
    eval leftFirst (realPoint p) g = .ok (some b) ∧ RegularAt leftFirst (Function.update p 0 b) e := by
  have he : Smooth (.bin .mult (.un (.fn .log) (.var 0)) (.var 1) : Expr XReal) :=
    .bin (.inr (.inr (.inl rfl))) (.fn (by decide) (.var 0)) (.var 1)
  have hg : Smooth (.bin .plus (.var 0) (.bin .mult (.var 1) (.var 1)) : Expr XReal) :=
    .bin (.inl rfl) (.var 0) (.bin (.inr (.inr (.inl rfl))) (.var 1) (.var 1))
  have rg : Reg ![1, 2] (.bin .plus (.var 0) (.bin .mult (.var 1) (.var 1)) : Expr XReal) := by simp [Reg, opOk]
  refine ⟨_, _, ![1, 2], _, he, hg, (regularAt_iff hg _).2 rg, rg.eval _, (regularAt_iff he _).2 ?_⟩
  simp [Reg, opOk, fnOk, rv, opR]
  norm_num

end VM.Props
