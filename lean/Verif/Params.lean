import Verif.Models

/-! Written by `tools/gen_elementwise.py`. -/

/-!
# Parameters of a distribution

`fmap f d` applies `f` to every numeric parameter of `d` and keeps the flags; `All` and `Rel`
are "every parameter satisfies" and "corresponding parameters are related".
-/

namespace Conj

class Params (D : Type → Type) where
  fmap : {α β : Type} → (α → β) → D α → D β
  All : {α : Type} → (α → Prop) → D α → Prop
  Rel : {α β : Type} → (α → β → Prop) → D α → D β → Prop

export Params (fmap)

/-- both calls succeed with related results, or both raise the same exception -/
def ExceptRel {A B : Type} (Q : A → B → Prop) : Except PyErr A → Except PyErr B → Prop
  | .ok a, .ok b => Q a b
  | .error x, .error y => x = y
  | _, _ => False

class LawfulParams (D : Type → Type) extends Params D where
  fmap_fmap : ∀ {α β γ : Type} (f : α → β) (g : β → γ) (d : D α), fmap g (fmap f d) = fmap (fun a => g (f a)) d
  rel_lift : ∀ {α β : Type} {R : α → β → Prop} {d : D α} {d' : D β}, Rel R d d' →
    ∃ e : D {p : α × β // R p.1 p.2}, fmap (fun p => p.1.1) e = d ∧ fmap (fun p => p.1.2) e = d'
  all_val : ∀ {α : Type} {p : α → Prop} (e : D {a // p a}), All p (fmap Subtype.val e)
  all_lift : ∀ {α : Type} {p : α → Prop} {d : D α}, All p d → ∃ e : D {a // p a}, fmap Subtype.val e = d
  rel_fmap : ∀ {α β γ : Type} {R : β → γ → Prop} (f : α → β) (g : α → γ), (∀ a, R (f a) (g a)) →
    ∀ d : D α, Rel R (fmap f d) (fmap g d)

theorem LawfulParams.rel_fmap_all {D : Type → Type} [LawfulParams D] {α β γ : Type} {p : α → Prop}
    {R : β → γ → Prop} (f : α → β) (g : α → γ) (h : ∀ a, p a → R (f a) (g a)) {d : D α}
    (hd : Params.All p d) : Params.Rel R (fmap f d) (fmap g d) := by
  obtain ⟨e, rfl⟩ := all_lift hd
  rw [fmap_fmap, fmap_fmap]
  exact rel_fmap _ _ (fun a => h a.1 a.2) e

instance : Params Beta where
  fmap f d := { alpha := f d.alpha, beta := f d.beta }
  All p d := p d.alpha ∧ p d.beta
  Rel R d d' := R d.alpha d'.alpha ∧ R d.beta d'.beta

instance : LawfulParams Beta where
  fmap_fmap _ _ _ := rfl
  rel_lift {α β R d d'} h := by
    obtain ⟨h_alpha, h_beta⟩ := h
    refine ⟨{ alpha := ⟨(d.alpha, d'.alpha), h_alpha⟩, beta := ⟨(d.beta, d'.beta), h_beta⟩ }, rfl, ?_⟩
    rfl
  all_val e := ⟨e.alpha.2, e.beta.2⟩
  all_lift {α p d} h := ⟨{ alpha := ⟨d.alpha, h.1⟩, beta := ⟨d.beta, h.2⟩ }, rfl⟩
  rel_fmap _ _ h _ := ⟨h _, h _⟩

instance : Params Gamma where
  fmap f d := { alpha := f d.alpha, beta := f d.beta }
  All p d := p d.alpha ∧ p d.beta
  Rel R d d' := R d.alpha d'.alpha ∧ R d.beta d'.beta

instance : LawfulParams Gamma where
  fmap_fmap _ _ _ := rfl
  rel_lift {α β R d d'} h := by
    obtain ⟨h_alpha, h_beta⟩ := h
    refine ⟨{ alpha := ⟨(d.alpha, d'.alpha), h_alpha⟩, beta := ⟨(d.beta, d'.beta), h_beta⟩ }, rfl, ?_⟩
    rfl
  all_val e := ⟨e.alpha.2, e.beta.2⟩
  all_lift {α p d} h := ⟨{ alpha := ⟨d.alpha, h.1⟩, beta := ⟨d.beta, h.2⟩ }, rfl⟩
  rel_fmap _ _ h _ := ⟨h _, h _⟩

instance : Params InverseGamma where
  fmap f d := { alpha := f d.alpha, beta := f d.beta }
  All p d := p d.alpha ∧ p d.beta
  Rel R d d' := R d.alpha d'.alpha ∧ R d.beta d'.beta

instance : LawfulParams InverseGamma where
  fmap_fmap _ _ _ := rfl
  rel_lift {α β R d d'} h := by
    obtain ⟨h_alpha, h_beta⟩ := h
    refine ⟨{ alpha := ⟨(d.alpha, d'.alpha), h_alpha⟩, beta := ⟨(d.beta, d'.beta), h_beta⟩ }, rfl, ?_⟩
    rfl
  all_val e := ⟨e.alpha.2, e.beta.2⟩
  all_lift {α p d} h := ⟨{ alpha := ⟨d.alpha, h.1⟩, beta := ⟨d.beta, h.2⟩ }, rfl⟩
  rel_fmap _ _ h _ := ⟨h _, h _⟩

instance : Params Normal where
  fmap f d := { mu := f d.mu, sigma := f d.sigma }
  All p d := p d.mu ∧ p d.sigma
  Rel R d d' := R d.mu d'.mu ∧ R d.sigma d'.sigma

instance : LawfulParams Normal where
  fmap_fmap _ _ _ := rfl
  rel_lift {α β R d d'} h := by
    obtain ⟨h_mu, h_sigma⟩ := h
    refine ⟨{ mu := ⟨(d.mu, d'.mu), h_mu⟩, sigma := ⟨(d.sigma, d'.sigma), h_sigma⟩ }, rfl, ?_⟩
    rfl
  all_val e := ⟨e.mu.2, e.sigma.2⟩
  all_lift {α p d} h := ⟨{ mu := ⟨d.mu, h.1⟩, sigma := ⟨d.sigma, h.2⟩ }, rfl⟩
  rel_fmap _ _ h _ := ⟨h _, h _⟩

instance : Params BetaBinomial where
  fmap f d := { n := f d.n, alpha := f d.alpha, beta := f d.beta }
  All p d := p d.n ∧ p d.alpha ∧ p d.beta
  Rel R d d' := R d.n d'.n ∧ R d.alpha d'.alpha ∧ R d.beta d'.beta

instance : LawfulParams BetaBinomial where
  fmap_fmap _ _ _ := rfl
  rel_lift {α β R d d'} h := by
    obtain ⟨h_n, h_alpha, h_beta⟩ := h
    refine ⟨{ n := ⟨(d.n, d'.n), h_n⟩, alpha := ⟨(d.alpha, d'.alpha), h_alpha⟩, beta := ⟨(d.beta, d'.beta), h_beta⟩ }, rfl, ?_⟩
    rfl
  all_val e := ⟨e.n.2, e.alpha.2, e.beta.2⟩
  all_lift {α p d} h := ⟨{ n := ⟨d.n, h.1⟩, alpha := ⟨d.alpha, h.2.1⟩, beta := ⟨d.beta, h.2.2⟩ }, rfl⟩
  rel_fmap _ _ h _ := ⟨h _, h _, h _⟩

instance : Params BetaNegativeBinomial where
  fmap f d := { n := f d.n, alpha := f d.alpha, beta := f d.beta }
  All p d := p d.n ∧ p d.alpha ∧ p d.beta
  Rel R d d' := R d.n d'.n ∧ R d.alpha d'.alpha ∧ R d.beta d'.beta

instance : LawfulParams BetaNegativeBinomial where
  fmap_fmap _ _ _ := rfl
  rel_lift {α β R d d'} h := by
    obtain ⟨h_n, h_alpha, h_beta⟩ := h
    refine ⟨{ n := ⟨(d.n, d'.n), h_n⟩, alpha := ⟨(d.alpha, d'.alpha), h_alpha⟩, beta := ⟨(d.beta, d'.beta), h_beta⟩ }, rfl, ?_⟩
    rfl
  all_val e := ⟨e.n.2, e.alpha.2, e.beta.2⟩
  all_lift {α p d} h := ⟨{ n := ⟨d.n, h.1⟩, alpha := ⟨d.alpha, h.2.1⟩, beta := ⟨d.beta, h.2.2⟩ }, rfl⟩
  rel_fmap _ _ h _ := ⟨h _, h _, h _⟩

instance : Params BetaGeometric where
  fmap f d := { alpha := f d.alpha, beta := f d.beta, one_start := d.one_start }
  All p d := p d.alpha ∧ p d.beta
  Rel R d d' := R d.alpha d'.alpha ∧ R d.beta d'.beta ∧ d.one_start = d'.one_start

instance : LawfulParams BetaGeometric where
  fmap_fmap _ _ _ := rfl
  rel_lift {α β R d d'} h := by
    obtain ⟨h_alpha, h_beta, h_one_start⟩ := h
    refine ⟨{ alpha := ⟨(d.alpha, d'.alpha), h_alpha⟩, beta := ⟨(d.beta, d'.beta), h_beta⟩, one_start := d.one_start }, rfl, ?_⟩
    cases d; cases d'; simp_all [fmap]
  all_val e := ⟨e.alpha.2, e.beta.2⟩
  all_lift {α p d} h := ⟨{ alpha := ⟨d.alpha, h.1⟩, beta := ⟨d.beta, h.2⟩, one_start := d.one_start }, rfl⟩
  rel_fmap _ _ h _ := ⟨h _, h _, rfl⟩

instance : Params NegativeBinomial where
  fmap f d := { n := f d.n, p := f d.p }
  All p d := p d.n ∧ p d.p
  Rel R d d' := R d.n d'.n ∧ R d.p d'.p

instance : LawfulParams NegativeBinomial where
  fmap_fmap _ _ _ := rfl
  rel_lift {α β R d d'} h := by
    obtain ⟨h_n, h_p⟩ := h
    refine ⟨{ n := ⟨(d.n, d'.n), h_n⟩, p := ⟨(d.p, d'.p), h_p⟩ }, rfl, ?_⟩
    rfl
  all_val e := ⟨e.n.2, e.p.2⟩
  all_lift {α p d} h := ⟨{ n := ⟨d.n, h.1⟩, p := ⟨d.p, h.2⟩ }, rfl⟩
  rel_fmap _ _ h _ := ⟨h _, h _⟩

instance : Params Lomax where
  fmap f d := { alpha := f d.alpha, lam := f d.lam }
  All p d := p d.alpha ∧ p d.lam
  Rel R d d' := R d.alpha d'.alpha ∧ R d.lam d'.lam

instance : LawfulParams Lomax where
  fmap_fmap _ _ _ := rfl
  rel_lift {α β R d d'} h := by
    obtain ⟨h_alpha, h_lam⟩ := h
    refine ⟨{ alpha := ⟨(d.alpha, d'.alpha), h_alpha⟩, lam := ⟨(d.lam, d'.lam), h_lam⟩ }, rfl, ?_⟩
    rfl
  all_val e := ⟨e.alpha.2, e.lam.2⟩
  all_lift {α p d} h := ⟨{ alpha := ⟨d.alpha, h.1⟩, lam := ⟨d.lam, h.2⟩ }, rfl⟩
  rel_fmap _ _ h _ := ⟨h _, h _⟩

instance : Params CompoundGamma where
  fmap f d := { alpha := f d.alpha, beta := f d.beta, lam := f d.lam }
  All p d := p d.alpha ∧ p d.beta ∧ p d.lam
  Rel R d d' := R d.alpha d'.alpha ∧ R d.beta d'.beta ∧ R d.lam d'.lam

instance : LawfulParams CompoundGamma where
  fmap_fmap _ _ _ := rfl
  rel_lift {α β R d d'} h := by
    obtain ⟨h_alpha, h_beta, h_lam⟩ := h
    refine ⟨{ alpha := ⟨(d.alpha, d'.alpha), h_alpha⟩, beta := ⟨(d.beta, d'.beta), h_beta⟩, lam := ⟨(d.lam, d'.lam), h_lam⟩ }, rfl, ?_⟩
    rfl
  all_val e := ⟨e.alpha.2, e.beta.2, e.lam.2⟩
  all_lift {α p d} h := ⟨{ alpha := ⟨d.alpha, h.1⟩, beta := ⟨d.beta, h.2.1⟩, lam := ⟨d.lam, h.2.2⟩ }, rfl⟩
  rel_fmap _ _ h _ := ⟨h _, h _, h _⟩

instance : Params StudentT where
  fmap f d := { mu := f d.mu, sigma := f d.sigma, nu := f d.nu }
  All p d := p d.mu ∧ p d.sigma ∧ p d.nu
  Rel R d d' := R d.mu d'.mu ∧ R d.sigma d'.sigma ∧ R d.nu d'.nu

instance : LawfulParams StudentT where
  fmap_fmap _ _ _ := rfl
  rel_lift {α β R d d'} h := by
    obtain ⟨h_mu, h_sigma, h_nu⟩ := h
    refine ⟨{ mu := ⟨(d.mu, d'.mu), h_mu⟩, sigma := ⟨(d.sigma, d'.sigma), h_sigma⟩, nu := ⟨(d.nu, d'.nu), h_nu⟩ }, rfl, ?_⟩
    rfl
  all_val e := ⟨e.mu.2, e.sigma.2, e.nu.2⟩
  all_lift {α p d} h := ⟨{ mu := ⟨d.mu, h.1⟩, sigma := ⟨d.sigma, h.2.1⟩, nu := ⟨d.nu, h.2.2⟩ }, rfl⟩
  rel_fmap _ _ h _ := ⟨h _, h _, h _⟩

instance : Params ScaledInverseChiSquared where
  fmap f d := { nu := f d.nu, sigma2 := f d.sigma2 }
  All p d := p d.nu ∧ p d.sigma2
  Rel R d d' := R d.nu d'.nu ∧ R d.sigma2 d'.sigma2

instance : LawfulParams ScaledInverseChiSquared where
  fmap_fmap _ _ _ := rfl
  rel_lift {α β R d d'} h := by
    obtain ⟨h_nu, h_sigma2⟩ := h
    refine ⟨{ nu := ⟨(d.nu, d'.nu), h_nu⟩, sigma2 := ⟨(d.sigma2, d'.sigma2), h_sigma2⟩ }, rfl, ?_⟩
    rfl
  all_val e := ⟨e.nu.2, e.sigma2.2⟩
  all_lift {α p d} h := ⟨{ nu := ⟨d.nu, h.1⟩, sigma2 := ⟨d.sigma2, h.2⟩ }, rfl⟩
  rel_fmap _ _ h _ := ⟨h _, h _⟩

instance : Params NormalGamma where
  fmap f d := { mu := f d.mu, lam := f d.lam, alpha := f d.alpha, beta := f d.beta }
  All p d := p d.mu ∧ p d.lam ∧ p d.alpha ∧ p d.beta
  Rel R d d' := R d.mu d'.mu ∧ R d.lam d'.lam ∧ R d.alpha d'.alpha ∧ R d.beta d'.beta

instance : LawfulParams NormalGamma where
  fmap_fmap _ _ _ := rfl
  rel_lift {α β R d d'} h := by
    obtain ⟨h_mu, h_lam, h_alpha, h_beta⟩ := h
    refine ⟨{ mu := ⟨(d.mu, d'.mu), h_mu⟩, lam := ⟨(d.lam, d'.lam), h_lam⟩, alpha := ⟨(d.alpha, d'.alpha), h_alpha⟩, beta := ⟨(d.beta, d'.beta), h_beta⟩ }, rfl, ?_⟩
    rfl
  all_val e := ⟨e.mu.2, e.lam.2, e.alpha.2, e.beta.2⟩
  all_lift {α p d} h := ⟨{ mu := ⟨d.mu, h.1⟩, lam := ⟨d.lam, h.2.1⟩, alpha := ⟨d.alpha, h.2.2.1⟩, beta := ⟨d.beta, h.2.2.2⟩ }, rfl⟩
  rel_fmap _ _ h _ := ⟨h _, h _, h _, h _⟩

instance : Params Pareto where
  fmap f d := { x_m := f d.x_m, alpha := f d.alpha }
  All p d := p d.x_m ∧ p d.alpha
  Rel R d d' := R d.x_m d'.x_m ∧ R d.alpha d'.alpha

instance : LawfulParams Pareto where
  fmap_fmap _ _ _ := rfl
  rel_lift {α β R d d'} h := by
    obtain ⟨h_x_m, h_alpha⟩ := h
    refine ⟨{ x_m := ⟨(d.x_m, d'.x_m), h_x_m⟩, alpha := ⟨(d.alpha, d'.alpha), h_alpha⟩ }, rfl, ?_⟩
    rfl
  all_val e := ⟨e.x_m.2, e.alpha.2⟩
  all_lift {α p d} h := ⟨{ x_m := ⟨d.x_m, h.1⟩, alpha := ⟨d.alpha, h.2⟩ }, rfl⟩
  rel_fmap _ _ h _ := ⟨h _, h _⟩

instance : Params GammaProportional where
  fmap f d := { p := f d.p, q := f d.q, r := f d.r, s := f d.s }
  All p d := p d.p ∧ p d.q ∧ p d.r ∧ p d.s
  Rel R d d' := R d.p d'.p ∧ R d.q d'.q ∧ R d.r d'.r ∧ R d.s d'.s

instance : LawfulParams GammaProportional where
  fmap_fmap _ _ _ := rfl
  rel_lift {α β R d d'} h := by
    obtain ⟨h_p, h_q, h_r, h_s⟩ := h
    refine ⟨{ p := ⟨(d.p, d'.p), h_p⟩, q := ⟨(d.q, d'.q), h_q⟩, r := ⟨(d.r, d'.r), h_r⟩, s := ⟨(d.s, d'.s), h_s⟩ }, rfl, ?_⟩
    rfl
  all_val e := ⟨e.p.2, e.q.2, e.r.2, e.s.2⟩
  all_lift {α p d} h := ⟨{ p := ⟨d.p, h.1⟩, q := ⟨d.q, h.2.1⟩, r := ⟨d.r, h.2.2.1⟩, s := ⟨d.s, h.2.2.2⟩ }, rfl⟩
  rel_fmap _ _ h _ := ⟨h _, h _, h _, h _⟩

instance : Params GammaKnownRateProportional where
  fmap f d := { a := f d.a, b := f d.b, c := f d.c }
  All p d := p d.a ∧ p d.b ∧ p d.c
  Rel R d d' := R d.a d'.a ∧ R d.b d'.b ∧ R d.c d'.c

instance : LawfulParams GammaKnownRateProportional where
  fmap_fmap _ _ _ := rfl
  rel_lift {α β R d d'} h := by
    obtain ⟨h_a, h_b, h_c⟩ := h
    refine ⟨{ a := ⟨(d.a, d'.a), h_a⟩, b := ⟨(d.b, d'.b), h_b⟩, c := ⟨(d.c, d'.c), h_c⟩ }, rfl, ?_⟩
    rfl
  all_val e := ⟨e.a.2, e.b.2, e.c.2⟩
  all_lift {α p d} h := ⟨{ a := ⟨d.a, h.1⟩, b := ⟨d.b, h.2.1⟩, c := ⟨d.c, h.2.2⟩ }, rfl⟩
  rel_fmap _ _ h _ := ⟨h _, h _, h _⟩

instance : Params BetaProportional where
  fmap f d := { p := f d.p, q := f d.q, k := f d.k }
  All p d := p d.p ∧ p d.q ∧ p d.k
  Rel R d d' := R d.p d'.p ∧ R d.q d'.q ∧ R d.k d'.k

instance : LawfulParams BetaProportional where
  fmap_fmap _ _ _ := rfl
  rel_lift {α β R d d'} h := by
    obtain ⟨h_p, h_q, h_k⟩ := h
    refine ⟨{ p := ⟨(d.p, d'.p), h_p⟩, q := ⟨(d.q, d'.q), h_q⟩, k := ⟨(d.k, d'.k), h_k⟩ }, rfl, ?_⟩
    rfl
  all_val e := ⟨e.p.2, e.q.2, e.k.2⟩
  all_lift {α p d} h := ⟨{ p := ⟨d.p, h.1⟩, q := ⟨d.q, h.2.1⟩, k := ⟨d.k, h.2.2⟩ }, rfl⟩
  rel_fmap _ _ h _ := ⟨h _, h _, h _⟩

instance : Params VonMisesKnownConcentration where
  fmap f d := { a := f d.a, b := f d.b }
  All p d := p d.a ∧ p d.b
  Rel R d d' := R d.a d'.a ∧ R d.b d'.b

instance : LawfulParams VonMisesKnownConcentration where
  fmap_fmap _ _ _ := rfl
  rel_lift {α β R d d'} h := by
    obtain ⟨h_a, h_b⟩ := h
    refine ⟨{ a := ⟨(d.a, d'.a), h_a⟩, b := ⟨(d.b, d'.b), h_b⟩ }, rfl, ?_⟩
    rfl
  all_val e := ⟨e.a.2, e.b.2⟩
  all_lift {α p d} h := ⟨{ a := ⟨d.a, h.1⟩, b := ⟨d.b, h.2⟩ }, rfl⟩
  rel_fmap _ _ h _ := ⟨h _, h _⟩

instance : Params VonMisesKnownDirectionProportional where
  fmap f d := { c := f d.c, r := f d.r }
  All p d := p d.c ∧ p d.r
  Rel R d d' := R d.c d'.c ∧ R d.r d'.r

instance : LawfulParams VonMisesKnownDirectionProportional where
  fmap_fmap _ _ _ := rfl
  rel_lift {α β R d d'} h := by
    obtain ⟨h_c, h_r⟩ := h
    refine ⟨{ c := ⟨(d.c, d'.c), h_c⟩, r := ⟨(d.r, d'.r), h_r⟩ }, rfl, ?_⟩
    rfl
  all_val e := ⟨e.c.2, e.r.2⟩
  all_lift {α p d} h := ⟨{ c := ⟨d.c, h.1⟩, r := ⟨d.r, h.2⟩ }, rfl⟩
  rel_fmap _ _ h _ := ⟨h _, h _⟩

instance : Params Binomial where
  fmap f d := { n := f d.n, p := f d.p }
  All p d := p d.n ∧ p d.p
  Rel R d d' := R d.n d'.n ∧ R d.p d'.p

instance : LawfulParams Binomial where
  fmap_fmap _ _ _ := rfl
  rel_lift {α β R d d'} h := by
    obtain ⟨h_n, h_p⟩ := h
    refine ⟨{ n := ⟨(d.n, d'.n), h_n⟩, p := ⟨(d.p, d'.p), h_p⟩ }, rfl, ?_⟩
    rfl
  all_val e := ⟨e.n.2, e.p.2⟩
  all_lift {α p d} h := ⟨{ n := ⟨d.n, h.1⟩, p := ⟨d.p, h.2⟩ }, rfl⟩
  rel_fmap _ _ h _ := ⟨h _, h _⟩

instance : Params Exponential where
  fmap f d := { lam := f d.lam }
  All p d := p d.lam
  Rel R d d' := R d.lam d'.lam

instance : LawfulParams Exponential where
  fmap_fmap _ _ _ := rfl
  rel_lift {α β R d d'} h := by
    have h_lam := h
    refine ⟨{ lam := ⟨(d.lam, d'.lam), h_lam⟩ }, rfl, ?_⟩
    rfl
  all_val e := e.lam.2
  all_lift {α p d} h := ⟨{ lam := ⟨d.lam, h⟩ }, rfl⟩
  rel_fmap _ _ h _ := h _

instance : Params Hypergeometric where
  fmap f d := { N := f d.N, k := f d.k, n := f d.n }
  All p d := p d.N ∧ p d.k ∧ p d.n
  Rel R d d' := R d.N d'.N ∧ R d.k d'.k ∧ R d.n d'.n

instance : LawfulParams Hypergeometric where
  fmap_fmap _ _ _ := rfl
  rel_lift {α β R d d'} h := by
    obtain ⟨h_N, h_k, h_n⟩ := h
    refine ⟨{ N := ⟨(d.N, d'.N), h_N⟩, k := ⟨(d.k, d'.k), h_k⟩, n := ⟨(d.n, d'.n), h_n⟩ }, rfl, ?_⟩
    rfl
  all_val e := ⟨e.N.2, e.k.2, e.n.2⟩
  all_lift {α p d} h := ⟨{ N := ⟨d.N, h.1⟩, k := ⟨d.k, h.2.1⟩, n := ⟨d.n, h.2.2⟩ }, rfl⟩
  rel_fmap _ _ h _ := ⟨h _, h _, h _⟩

instance : Params Poisson where
  fmap f d := { lam := f d.lam }
  All p d := p d.lam
  Rel R d d' := R d.lam d'.lam

instance : LawfulParams Poisson where
  fmap_fmap _ _ _ := rfl
  rel_lift {α β R d d'} h := by
    have h_lam := h
    refine ⟨{ lam := ⟨(d.lam, d'.lam), h_lam⟩ }, rfl, ?_⟩
    rfl
  all_val e := e.lam.2
  all_lift {α p d} h := ⟨{ lam := ⟨d.lam, h⟩ }, rfl⟩
  rel_fmap _ _ h _ := h _

instance : Params Geometric where
  fmap f d := { p := f d.p, one_start := d.one_start }
  All p d := p d.p
  Rel R d d' := R d.p d'.p ∧ d.one_start = d'.one_start

instance : LawfulParams Geometric where
  fmap_fmap _ _ _ := rfl
  rel_lift {α β R d d'} h := by
    obtain ⟨h_p, h_one_start⟩ := h
    refine ⟨{ p := ⟨(d.p, d'.p), h_p⟩, one_start := d.one_start }, rfl, ?_⟩
    cases d; cases d'; simp_all [fmap]
  all_val e := e.p.2
  all_lift {α p d} h := ⟨{ p := ⟨d.p, h⟩, one_start := d.one_start }, rfl⟩
  rel_fmap _ _ h _ := ⟨h _, rfl⟩

instance : Params Uniform where
  fmap f d := { low := f d.low, high := f d.high }
  All p d := p d.low ∧ p d.high
  Rel R d d' := R d.low d'.low ∧ R d.high d'.high

instance : LawfulParams Uniform where
  fmap_fmap _ _ _ := rfl
  rel_lift {α β R d d'} h := by
    obtain ⟨h_low, h_high⟩ := h
    refine ⟨{ low := ⟨(d.low, d'.low), h_low⟩, high := ⟨(d.high, d'.high), h_high⟩ }, rfl, ?_⟩
    rfl
  all_val e := ⟨e.low.2, e.high.2⟩
  all_lift {α p d} h := ⟨{ low := ⟨d.low, h.1⟩, high := ⟨d.high, h.2⟩ }, rfl⟩
  rel_fmap _ _ h _ := ⟨h _, h _⟩

instance : Params VonMises where
  fmap f d := { mu := f d.mu, kappa := f d.kappa }
  All p d := p d.mu ∧ p d.kappa
  Rel R d d' := R d.mu d'.mu ∧ R d.kappa d'.kappa

instance : LawfulParams VonMises where
  fmap_fmap _ _ _ := rfl
  rel_lift {α β R d d'} h := by
    obtain ⟨h_mu, h_kappa⟩ := h
    refine ⟨{ mu := ⟨(d.mu, d'.mu), h_mu⟩, kappa := ⟨(d.kappa, d'.kappa), h_kappa⟩ }, rfl, ?_⟩
    rfl
  all_val e := ⟨e.mu.2, e.kappa.2⟩
  all_lift {α p d} h := ⟨{ mu := ⟨d.mu, h.1⟩, kappa := ⟨d.kappa, h.2⟩ }, rfl⟩
  rel_fmap _ _ h _ := ⟨h _, h _⟩

instance : Params LogNormal where
  fmap f d := { mu := f d.mu, sigma := f d.sigma }
  All p d := p d.mu ∧ p d.sigma
  Rel R d d' := R d.mu d'.mu ∧ R d.sigma d'.sigma

instance : LawfulParams LogNormal where
  fmap_fmap _ _ _ := rfl
  rel_lift {α β R d d'} h := by
    obtain ⟨h_mu, h_sigma⟩ := h
    refine ⟨{ mu := ⟨(d.mu, d'.mu), h_mu⟩, sigma := ⟨(d.sigma, d'.sigma), h_sigma⟩ }, rfl, ?_⟩
    rfl
  all_val e := ⟨e.mu.2, e.sigma.2⟩
  all_lift {α p d} h := ⟨{ mu := ⟨d.mu, h.1⟩, sigma := ⟨d.sigma, h.2⟩ }, rfl⟩
  rel_fmap _ _ h _ := ⟨h _, h _⟩

instance : Params Weibull where
  fmap f d := { beta := f d.beta, theta := f d.theta }
  All p d := p d.beta ∧ p d.theta
  Rel R d d' := R d.beta d'.beta ∧ R d.theta d'.theta

instance : LawfulParams Weibull where
  fmap_fmap _ _ _ := rfl
  rel_lift {α β R d d'} h := by
    obtain ⟨h_beta, h_theta⟩ := h
    refine ⟨{ beta := ⟨(d.beta, d'.beta), h_beta⟩, theta := ⟨(d.theta, d'.theta), h_theta⟩ }, rfl, ?_⟩
    rfl
  all_val e := ⟨e.beta.2, e.theta.2⟩
  all_lift {α p d} h := ⟨{ beta := ⟨d.beta, h.1⟩, theta := ⟨d.theta, h.2⟩ }, rfl⟩
  rel_fmap _ _ h _ := ⟨h _, h _⟩

/-- parameters of the union `InverseGamma | ScaledInverseChiSquared` -/
instance : Params VariancePrior where
  fmap f d := match d with
    | .inverseGamma d => .inverseGamma (fmap f d)
    | .scaledInverseChiSquared d => .scaledInverseChiSquared (fmap f d)
  All p d := match d with
    | .inverseGamma d => Params.All p d
    | .scaledInverseChiSquared d => Params.All p d
  Rel R d d' := match d, d' with
    | .inverseGamma d, .inverseGamma d' => Params.Rel R d d'
    | .scaledInverseChiSquared d, .scaledInverseChiSquared d' => Params.Rel R d d'
    | _, _ => False

instance : LawfulParams VariancePrior where
  fmap_fmap _ _ d := by cases d <;> rfl
  rel_lift {α β R d d'} h := by
    match d, d', h with
    | .inverseGamma d, .inverseGamma d', h =>
      obtain ⟨e, rfl, rfl⟩ := LawfulParams.rel_lift (D := InverseGamma) h
      exact ⟨.inverseGamma e, rfl, rfl⟩
    | .scaledInverseChiSquared d, .scaledInverseChiSquared d', h =>
      obtain ⟨e, rfl, rfl⟩ := LawfulParams.rel_lift (D := ScaledInverseChiSquared) h
      exact ⟨.scaledInverseChiSquared e, rfl, rfl⟩
  all_val e := by
    cases e with
    | inverseGamma e => exact LawfulParams.all_val (D := InverseGamma) e
    | scaledInverseChiSquared e => exact LawfulParams.all_val (D := ScaledInverseChiSquared) e
  all_lift {α p d} h := by
    match d, h with
    | .inverseGamma d, h =>
      obtain ⟨e, rfl⟩ := LawfulParams.all_lift (D := InverseGamma) h
      exact ⟨.inverseGamma e, rfl⟩
    | .scaledInverseChiSquared d, h =>
      obtain ⟨e, rfl⟩ := LawfulParams.all_lift (D := ScaledInverseChiSquared) h
      exact ⟨.scaledInverseChiSquared e, rfl⟩
  rel_fmap f g h d := by
    cases d with
    | inverseGamma d => exact LawfulParams.rel_fmap (D := InverseGamma) f g h d
    | scaledInverseChiSquared d => exact LawfulParams.rel_fmap (D := ScaledInverseChiSquared) f g h d

/-- `NormalInverseGamma` with a number for `mu`; `delta_inverse` is not a number and is kept -/
abbrev UnivariateNIG (M : Type) (α : Type) := NormalInverseGamma α α M

instance {M : Type} : Params (UnivariateNIG M) where
  fmap f d := { mu := f d.mu, alpha := f d.alpha, beta := f d.beta, delta_inverse := d.delta_inverse, nu := d.nu.map f }
  All p d := p d.mu ∧ p d.alpha ∧ p d.beta ∧ ∀ nu ∈ d.nu, p nu
  Rel R d d' := R d.mu d'.mu ∧ R d.alpha d'.alpha ∧ R d.beta d'.beta ∧ Option.Rel R d.nu d'.nu ∧ d.delta_inverse = d'.delta_inverse

instance {M : Type} : LawfulParams (UnivariateNIG M) where
  fmap_fmap f g d := by
    obtain ⟨_, _, _, _, nu⟩ := d
    cases nu <;> rfl
  rel_lift {α β R d d'} h := by
    obtain ⟨mu, al, be, de, nu⟩ := d
    obtain ⟨mu', al', be', de', nu'⟩ := d'
    obtain ⟨h1, h2, h3, h4, h5⟩ := h
    simp only at h1 h2 h3 h4 h5
    subst h5
    cases h4 with
    | none => exact ⟨⟨⟨(_, _), h1⟩, ⟨(_, _), h2⟩, ⟨(_, _), h3⟩, de, none⟩, rfl, rfl⟩
    | some h4 => exact ⟨⟨⟨(_, _), h1⟩, ⟨(_, _), h2⟩, ⟨(_, _), h3⟩, de, some ⟨(_, _), h4⟩⟩, rfl, rfl⟩
  all_val e := by
    obtain ⟨_, _, _, _, nu⟩ := e
    refine ⟨Subtype.property _, Subtype.property _, Subtype.property _, ?_⟩
    intro a ha
    cases nu with
    | none => simp [fmap] at ha
    | some b =>
      simp only [fmap, Option.map_some, Option.mem_some] at ha
      exact ha ▸ b.2
  all_lift {α p d} h := by
    obtain ⟨mu, al, be, de, nu⟩ := d
    obtain ⟨h1, h2, h3, h4⟩ := h
    cases nu with
    | none => exact ⟨⟨⟨_, h1⟩, ⟨_, h2⟩, ⟨_, h3⟩, de, none⟩, rfl⟩
    | some b => exact ⟨⟨⟨_, h1⟩, ⟨_, h2⟩, ⟨_, h3⟩, de, some ⟨b, h4 b rfl⟩⟩, rfl⟩
  rel_fmap f g h d := by
    obtain ⟨_, _, _, _, nu⟩ := d
    refine ⟨h _, h _, h _, ?_, rfl⟩
    cases nu with
    | none => exact .none
    | some b => exact .some (h b)

/-- the union `NormalInverseGamma | NormalGamma` -/
abbrev UnivariateNormalPrior (M : Type) (α : Type) := NormalPrior α M

instance {M : Type} : Params (UnivariateNormalPrior M) where
  fmap f d := match d with
    | .nig d => .nig (fmap (D := UnivariateNIG M) f d)
    | .ng d => .ng (fmap f d)
  All p d := match d with
    | .nig d => Params.All (D := UnivariateNIG M) p d
    | .ng d => Params.All p d
  Rel R d d' := match d, d' with
    | .nig d, .nig d' => Params.Rel (D := UnivariateNIG M) R d d'
    | .ng d, .ng d' => Params.Rel R d d'
    | _, _ => False

instance {M : Type} : LawfulParams (UnivariateNormalPrior M) where
  fmap_fmap f g d := by
    cases d with
    | nig d => exact congrArg NormalPrior.nig (LawfulParams.fmap_fmap (D := UnivariateNIG M) f g d)
    | ng d => rfl
  rel_lift {α β R d d'} h := by
    match d, d', h with
    | .nig d, .nig d', h =>
      obtain ⟨e, rfl, rfl⟩ := LawfulParams.rel_lift (D := UnivariateNIG M) h
      exact ⟨.nig e, rfl, rfl⟩
    | .ng d, .ng d', h =>
      obtain ⟨e, rfl, rfl⟩ := LawfulParams.rel_lift (D := NormalGamma) h
      exact ⟨.ng e, rfl, rfl⟩
  all_val e := by
    cases e with
    | nig e => exact LawfulParams.all_val (D := UnivariateNIG M) e
    | ng e => exact LawfulParams.all_val (D := NormalGamma) e
  all_lift {α p d} h := by
    match d, h with
    | .nig d, h =>
      obtain ⟨e, rfl⟩ := LawfulParams.all_lift (D := UnivariateNIG M) h
      exact ⟨.nig e, rfl⟩
    | .ng d, h =>
      obtain ⟨e, rfl⟩ := LawfulParams.all_lift (D := NormalGamma) h
      exact ⟨.ng e, rfl⟩
  rel_fmap f g h d := by
    cases d with
    | nig d => exact LawfulParams.rel_fmap (D := UnivariateNIG M) f g h d
    | ng d => exact LawfulParams.rel_fmap (D := NormalGamma) f g h d

end Conj
