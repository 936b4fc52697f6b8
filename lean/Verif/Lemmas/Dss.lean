/-
Helper lemmas for distributed signatures.
-/
import Verif.Model.Dss
import Verif.Lemmas.Shamir
import Verif.Lemmas.Schnorr

set_option linter.unusedSectionVars false

namespace Kyber.Dss

open Kyber.Poly Kyber.Schnorr Kyber.Spec

variable {F G : Type} [Field F] [AddCommGroup G] [DecidableEq G]

section

variable [SMul F G]

theorem polyVal_map_mul (c : F) (cs : List F) (x : F) :
    polyVal (cs.map (c * ·)) x = c * polyVal cs x := by
  unfold polyVal
  rw [Finset.mul_sum, List.length_map]
  refine Finset.sum_congr rfl fun k hk => ?_
  have hk' : k < cs.length := Finset.mem_range.1 hk
  simp [hk', mul_assoc]

theorem hashSig_ok {S : Suite F G} {d : DSS F G} {h : F} :
    hashSig S d = .ok h ↔ ∃ R A, d.random.commits.head? = some R ∧ d.long.commits.head? = some A ∧
      h = S.setBytes (S.sha512 (S.encG R ++ S.encG A ++ d.msg)) := by
  unfold hashSig
  cases d.random.commits.head? <;> cases d.long.commits.head? <;> simp [eq_comm]

/-- The exact condition under which a partial signature is stored. -/
theorem processPartialSig_ok_iff (S : Suite F G) (d d' : DSS F G) (ps : PartialSig F) :
    processPartialSig S d ps = .ok d' ↔
      ∃ (pub R A : G),
        d.participants[ps.partialShare.i]? = some pub ∧
        verify S pub (S.hash (S.hash (S.encS ps.partialShare.v ++ u32le ps.partialShare.i) ++
          ps.sessionId)) ps.signature = .ok () ∧
        ps.sessionId = d.sessionId ∧
        d.partialsIdx.contains ps.partialShare.i = false ∧
        d.random.commits.head? = some R ∧ d.long.commits.head? = some A ∧
        ps.partialShare.v • S.base =
          pointVal d.random.commits ((ps.partialShare.i + 1 : Nat) : F) +
          S.setBytes (S.sha512 (S.encG R ++ S.encG A ++ d.msg)) •
            pointVal d.long.commits ((ps.partialShare.i + 1 : Nat) : F) ∧
        d' = { d with
          partialsIdx := d.partialsIdx.insert ps.partialShare.i true
          partials := d.partials ++ [some ps.partialShare] } := by
  unfold processPartialSig
  simp only [Res.bind_eq_ok, Res.ofOption_eq_ok, Res.mapErr_eq_ok, Res.ite_err_eq_ok, hashSig_ok,
    ne_eq, not_not, Bool.not_eq_true, Res.ok.injEq, partialHash, shareHash]
  constructor
  · rintro ⟨pub, h1, ⟨⟩, h2, h3, h4, h, ⟨R, A, hR, hA, rfl⟩, rnd, h5, lng, h6, h7, h8⟩
    rw [pubEval_eq _ (by rintro h0; change d.random.commits = [] at h0; simp [h0] at hR)] at h5
    rw [pubEval_eq _ (by rintro h0; change d.long.commits = [] at h0; simp [h0] at hA)] at h6
    simp only [Res.ok.injEq] at h5 h6
    subst h5 h6
    exact ⟨pub, R, A, h1, h2, h3, h4, hR, hA, h7, h8.symm⟩
  · rintro ⟨pub, R, A, h1, h2, h3, h4, hR, hA, h7, h8⟩
    refine ⟨pub, h1, (), h2, h3, h4, _, ⟨R, A, hR, hA, rfl⟩, _,
      pubEval_eq _ (by rintro h0; change d.random.commits = [] at h0; simp [h0] at hR) _, _,
      pubEval_eq _ (by rintro h0; change d.long.commits = [] at h0; simp [h0] at hA) _, h7, h8.symm⟩

/-- What a successful `partial_sig` does to the state. -/
theorem partialSig_ok (S : Suite F G) (k : F) (d d' : DSS F G) (ps : PartialSig F)
    (h : partialSig S k d = .ok (ps, d')) :
    ∃ R A, d.random.commits.head? = some R ∧ d.long.commits.head? = some A ∧
      ps.partialShare = ⟨d.index, S.setBytes (S.sha512 (S.encG R ++ S.encG A ++ d.msg)) *
        d.long.share.v + d.random.share.v⟩ ∧
      (d' = d ∨ (d.signed = false ∧ d' = { d with
        partialsIdx := d.partialsIdx.insert d.index true
        partials := d.partials ++ [some ps.partialShare]
        signed := true })) := by
  unfold partialSig at h
  simp only [Res.bind_eq_ok, hashSig_ok] at h
  obtain ⟨_, ⟨R, A, hR, hA, rfl⟩, h⟩ := h
  refine ⟨R, A, hR, hA, ?_⟩
  split at h
  · simp only [Res.ok.injEq, Prod.mk.injEq] at h
    obtain ⟨rfl, rfl⟩ := h
    exact ⟨rfl, Or.inl rfl⟩
  · rename_i hs
    simp only [Res.ok.injEq, Prod.mk.injEq] at h
    obtain ⟨rfl, rfl⟩ := h
    exact ⟨rfl, Or.inr ⟨by simpa using hs, rfl⟩⟩

end

end Kyber.Dss
