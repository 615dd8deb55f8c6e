import Verif.Spec.Masked
import Verif.Proofs.Noise
import Verif.Proofs.PolyOps
import Mathlib.Algebra.BigOperators.Pi
/-!
# Masked arithmetic
-/
namespace Raccoon
attribute [-instance] Monoid.toNPow
open Finset

/-! ### sums over shares -/

theorem MPoly.val_set (v : MPoly d) (i : Nat) (hi : i < d) (x : Poly) :
    MPoly.val (v.set i x hi) = MPoly.val v - (v[i]).toZ + x.toZ := by
  unfold MPoly.val
  rw [← Finset.add_sum_erase univ (fun s : Fin d => ((v.set i x hi)[s.val]).toZ) (Finset.mem_univ (⟨i, hi⟩ : Fin d)),
    ← Finset.add_sum_erase univ (fun s : Fin d => (v[s.val]).toZ) (Finset.mem_univ (⟨i, hi⟩ : Fin d))]
  have e : ∑ s ∈ univ.erase (⟨i, hi⟩ : Fin d), ((v.set i x hi)[s.val]).toZ = ∑ s ∈ univ.erase (⟨i, hi⟩ : Fin d), (v[s.val]).toZ := by
    apply Finset.sum_congr rfl
    intro s hs
    have : i ≠ s.val := by
      intro h
      exact (Finset.mem_erase.1 hs).1 (Fin.ext h.symm)
    rw [Vector.getElem_set_ne _ _ this]
  rw [e]
  show ((v.set i x hi)[i]).toZ + _ = (v[i]).toZ + _ - _ + _
  rw [Vector.getElem_set_self]
  abel

theorem MPoly.can_set {v : MPoly d} (hv : MPoly.Can v) {i : Nat} (hi : i < d) {x : Poly} (hx : x.Can) : MPoly.Can (v.set i x hi) := by
  intro s hs
  by_cases h : s = i
  · subst h; rw [Vector.getElem_set_self]; exact hx
  · rw [Vector.getElem_set_ne _ _ (by omega)]; exact hv s hs

theorem foldl_add_poly (f : Nat → Poly) : ∀ (l : List Nat) (acc : Poly), acc.Can → (∀ i ∈ l, (f i).Can) →
    (l.foldl (fun acc i => Poly.add acc (f i)) acc).Can ∧
    (l.foldl (fun acc i => Poly.add acc (f i)) acc).toZ = acc.toZ + (l.map fun i => (f i).toZ).sum := by
  intro l
  induction l with
  | nil => intro acc h _; exact ⟨h, by simp⟩
  | cons a l ih =>
    intro acc h hf
    have h1 := Poly.add_can h (hf a (by simp))
    obtain ⟨h2, h3⟩ := ih _ h1 (fun i hi => hf i (by simp [hi]))
    refine ⟨h2, ?_⟩
    rw [List.foldl_cons, h3, Poly.add_toZ h (hf a (by simp)), List.map_cons, List.sum_cons, add_assoc]

theorem foldl_add_fin {n : Nat} (f : Fin n → Poly) (acc : Poly) (h : acc.Can) (hf : ∀ i, (f i).Can) :
    ((List.finRange n).foldl (fun acc i => Poly.add acc (f i)) acc).Can ∧
    ((List.finRange n).foldl (fun acc i => Poly.add acc (f i)) acc).toZ = acc.toZ + ∑ i, (f i).toZ := by
  have key : ∀ (l : List (Fin n)) (acc : Poly), acc.Can →
      (l.foldl (fun acc i => Poly.add acc (f i)) acc).Can ∧
      (l.foldl (fun acc i => Poly.add acc (f i)) acc).toZ = acc.toZ + (l.map fun i => (f i).toZ).sum := by
    intro l
    induction l with
    | nil => intro acc h; exact ⟨h, by simp⟩
    | cons a l ih =>
      intro acc h
      have h1 := Poly.add_can h (hf a)
      obtain ⟨h2, h3⟩ := ih _ h1
      refine ⟨h2, ?_⟩
      rw [List.foldl_cons, h3, Poly.add_toZ h (hf a), List.map_cons, List.sum_cons, add_assoc]
  obtain ⟨h1, h2⟩ := key (List.finRange n) acc h
  refine ⟨h1, ?_⟩
  rw [h2]
  congr 1

theorem MPoly.decode_get (v : MPoly d) : (MPoly.decode v)[0] = (List.finRange d).foldl (fun acc i => Poly.add acc v[i]) Poly.zero := rfl

theorem MPoly.decode_spec {v : MPoly d} (hv : MPoly.Can v) : ((MPoly.decode v)[0]).Can ∧ ((MPoly.decode v)[0]).toZ = MPoly.val v := by
  rw [MPoly.decode_get]
  obtain ⟨h1, h2⟩ := foldl_add_fin (fun i : Fin d => v[i.val]) Poly.zero Poly.zero_can (fun i => hv i.val i.isLt)
  refine ⟨h1, ?_⟩
  rw [Poly.zero_toZ, zero_add] at h2
  exact h2

theorem MPoly.can_one {v : MPoly 1} : MPoly.Can v ↔ (v[0]).Can := by
  constructor
  · intro h; exact h 0 (by omega)
  · intro h s hs
    obtain rfl : s = 0 := by omega
    exact h

theorem MPoly.val_one (v : MPoly 1) : MPoly.val v = (v[0]).toZ := by
  unfold MPoly.val; rw [Fin.sum_univ_one]; rfl

theorem MPoly.decode_can {v : MPoly d} (hv : MPoly.Can v) : MPoly.Can (MPoly.decode v) := MPoly.can_one.2 (MPoly.decode_spec hv).1

theorem MPoly.decode_val {v : MPoly d} (hv : MPoly.Can v) : MPoly.val (MPoly.decode v) = MPoly.val v := by
  rw [MPoly.val_one, (MPoly.decode_spec hv).2]

theorem MPoly.ext_one {a b : MPoly 1} (ha : MPoly.Can a) (hb : MPoly.Can b) (h : MPoly.val a = MPoly.val b) : a = b := by
  apply Vector.ext
  intro i hi
  obtain rfl : i = 0 := by omega
  rw [MPoly.val_one, MPoly.val_one] at h
  exact (Poly.toZ_inj (ha 0 hi) (hb 0 hi)).1 h

theorem MPoly.add_spec {a b : MPoly d} (ha : MPoly.Can a) (hb : MPoly.Can b) :
    MPoly.Can (MPoly.add a b) ∧ MPoly.val (MPoly.add a b) = MPoly.val a + MPoly.val b := by
  constructor
  · intro s hs; unfold MPoly.add; rw [Vector.getElem_zipWith]; exact Poly.add_can (ha s hs) (hb s hs)
  · unfold MPoly.val
    rw [← Finset.sum_add_distrib]
    apply Finset.sum_congr rfl
    intro s _
    unfold MPoly.add; rw [Vector.getElem_zipWith]; exact Poly.add_toZ (ha s s.isLt) (hb s s.isLt)

theorem MPoly.sub_spec {a b : MPoly d} (ha : MPoly.Can a) (hb : MPoly.Can b) :
    MPoly.Can (MPoly.sub a b) ∧ MPoly.val (MPoly.sub a b) = MPoly.val a - MPoly.val b := by
  constructor
  · intro s hs; unfold MPoly.sub; rw [Vector.getElem_zipWith]; exact Poly.sub_can (ha s hs) (hb s hs)
  · unfold MPoly.val
    rw [← Finset.sum_sub_distrib]
    apply Finset.sum_congr rfl
    intro s _
    unfold MPoly.sub; rw [Vector.getElem_zipWith]; exact Poly.sub_toZ (ha s s.isLt) (hb s s.isLt)

theorem MPoly.zero_spec (d : Nat) : MPoly.Can (MPoly.zero d) ∧ MPoly.val (MPoly.zero d) = 0 := by
  constructor
  · intro s hs; unfold MPoly.zero; rw [Vector.getElem_replicate]; exact Poly.zero_can
  · unfold MPoly.val MPoly.zero
    apply Finset.sum_eq_zero
    intro s _
    rw [Vector.getElem_replicate, Poly.zero_toZ]

theorem nttR_sum {ι : Type} (s : Finset ι) (f : ι → RPoly) : nttR (∑ i ∈ s, f i) = ∑ i ∈ s, nttR (f i) := by
  classical
  induction s using Finset.induction_on with
  | empty => simp [nttR_zero]
  | insert a s ha ih => rw [Finset.sum_insert ha, Finset.sum_insert ha, nttR_add, ih]

theorem inttR_sum {ι : Type} (s : Finset ι) (f : ι → RPoly) : inttR (∑ i ∈ s, f i) = ∑ i ∈ s, inttR (f i) := by
  classical
  induction s using Finset.induction_on with
  | empty => simp [inttR_zero]
  | insert a s ha ih => rw [Finset.sum_insert ha, Finset.sum_insert ha, inttR_add, ih]

theorem mapR_Ok {α β : Type u} {n : Nat} {f : α → Res β} {v : Vector α n} (P : Nat → β → Prop)
    (h : ∀ i (hi : i < n), (f v[i]).Ok (P i)) : (v.mapR f).Ok (fun w => ∀ i (hi : i < n), P i w[i]) := by
  have h1 : ∀ i : Fin n, ∃ b, f v[i.val] = .ok b ∧ P i.val b := fun i => h i.val i.isLt
  choose g hg using h1
  refine ⟨Vector.ofFn g, ?_, ?_⟩
  · rw [mapR_eq_ok]
    intro i hi
    rw [Vector.getElem_ofFn]
    exact (hg ⟨i, hi⟩).1
  · intro i hi
    rw [Vector.getElem_ofFn]
    exact (hg ⟨i, hi⟩).2

theorem MPoly.ntt_spec {a : MPoly d} (ha : MPoly.Can a) : (MPoly.ntt a).Ok (fun r => MPoly.Can r ∧ MPoly.val r = nttR (MPoly.val a)) := by
  unfold MPoly.ntt
  refine (mapR_Ok (fun i (r : Poly) => ∀ hi : i < d, r.Can ∧ r.toZ = nttR (a[i]).toZ) ?_).mono ?_
  · intro i hi
    exact (Raccoon.ntt_spec (ha i hi)).mono fun r h _ => h
  · intro r h
    refine ⟨fun s hs => (h s hs hs).1, ?_⟩
    unfold MPoly.val
    rw [nttR_sum]
    exact Finset.sum_congr rfl fun s _ => (h s.val s.isLt s.isLt).2

theorem MPoly.intt_spec {a : MPoly d} (ha : MPoly.Can a) : (MPoly.intt a).Ok (fun r => MPoly.Can r ∧ MPoly.val r = inttR (MPoly.val a)) := by
  unfold MPoly.intt
  refine (mapR_Ok (fun i (r : Poly) => ∀ hi : i < d, r.Can ∧ r.toZ = inttR (a[i]).toZ) ?_).mono ?_
  · intro i hi
    exact (intt_toZ (ha i hi)).mono fun r h _ => h
  · intro r h
    refine ⟨fun s hs => (h s hs hs).1, ?_⟩
    unfold MPoly.val
    rw [inttR_sum]
    exact Finset.sum_congr rfl fun s _ => (h s.val s.isLt s.isLt).2

/-! ### vectors -/

theorem PVec.zero_spec (rows d : Nat) : PVec.Can (PVec.zero rows d) ∧ PVec.val (PVec.zero rows d) = 0 := by
  constructor
  · intro r hr; unfold PVec.zero; rw [Vector.getElem_replicate]; exact (MPoly.zero_spec d).1
  · funext r; unfold PVec.val PVec.zero; rw [Vector.getElem_replicate]; exact (MPoly.zero_spec d).2

theorem PVec.add_spec {a b : PVec rows d} (ha : PVec.Can a) (hb : PVec.Can b) :
    PVec.Can (PVec.add a b) ∧ PVec.val (PVec.add a b) = PVec.val a + PVec.val b := by
  constructor
  · intro s hs; unfold PVec.add; rw [Vector.getElem_zipWith]; exact (MPoly.add_spec (ha s hs) (hb s hs)).1
  · funext s; unfold PVec.val PVec.add; rw [Vector.getElem_zipWith]; exact (MPoly.add_spec (ha s s.isLt) (hb s s.isLt)).2

theorem PVec.sub_spec {a b : PVec rows d} (ha : PVec.Can a) (hb : PVec.Can b) :
    PVec.Can (PVec.sub a b) ∧ PVec.val (PVec.sub a b) = PVec.val a - PVec.val b := by
  constructor
  · intro s hs; unfold PVec.sub; rw [Vector.getElem_zipWith]; exact (MPoly.sub_spec (ha s hs) (hb s hs)).1
  · funext s; unfold PVec.val PVec.sub; rw [Vector.getElem_zipWith]; exact (MPoly.sub_spec (ha s s.isLt) (hb s s.isLt)).2

theorem PVec.mulPoly_spec {a : PVec rows d} {c : Poly} (ha : PVec.Can a) (hc : c.Can) :
    PVec.Can (PVec.mulPoly a c) ∧ PVec.val (PVec.mulPoly a c) = fun r => PVec.val a r * c.toZ := by
  constructor
  · intro r hr s hs; unfold PVec.mulPoly; rw [Vector.getElem_map, Vector.getElem_map]; exact Poly.mul_can (ha r hr s hs) hc
  · funext r; unfold PVec.val MPoly.val PVec.mulPoly
    rw [Finset.sum_mul]
    apply Finset.sum_congr rfl
    intro s _
    rw [Vector.getElem_map, Vector.getElem_map]; exact Poly.mul_toZ (ha r r.isLt s s.isLt) hc

theorem PVec.ntt_spec {a : PVec rows d} (ha : PVec.Can a) :
    (PVec.ntt a).Ok (fun r => PVec.Can r ∧ PVec.val r = fun i => nttR (PVec.val a i)) := by
  unfold PVec.ntt
  refine (mapR_Ok (fun i (r : MPoly d) => ∀ hi : i < rows, MPoly.Can r ∧ MPoly.val r = nttR (MPoly.val a[i])) ?_).mono ?_
  · intro i hi
    exact (MPoly.ntt_spec (ha i hi)).mono fun r h _ => h
  · intro r h
    exact ⟨fun s hs => (h s hs hs).1, funext fun s => (h s.val s.isLt s.isLt).2⟩

theorem PVec.intt_spec {a : PVec rows d} (ha : PVec.Can a) :
    (PVec.intt a).Ok (fun r => PVec.Can r ∧ PVec.val r = fun i => inttR (PVec.val a i)) := by
  unfold PVec.intt
  refine (mapR_Ok (fun i (r : MPoly d) => ∀ hi : i < rows, MPoly.Can r ∧ MPoly.val r = inttR (MPoly.val a[i])) ?_).mono ?_
  · intro i hi
    exact (MPoly.intt_spec (ha i hi)).mono fun r h _ => h
  · intro r h
    exact ⟨fun s hs => (h s hs hs).1, funext fun s => (h s.val s.isLt s.isLt).2⟩

theorem PVec.decode_spec {a : PVec rows d} (ha : PVec.Can a) : PVec.Can (PVec.decode a) ∧ PVec.val (PVec.decode a) = PVec.val a := by
  constructor
  · intro r hr; unfold PVec.decode; rw [Vector.getElem_map]; exact MPoly.decode_can (ha r hr)
  · funext r; unfold PVec.val PVec.decode; rw [Vector.getElem_map]; exact MPoly.decode_val (ha r r.isLt)

theorem PVec.ext_one {a b : PVec rows 1} (ha : PVec.Can a) (hb : PVec.Can b) (h : PVec.val a = PVec.val b) : a = b := by
  apply Vector.ext
  intro r hr
  exact MPoly.ext_one (ha r hr) (hb r hr) (congrFun h ⟨r, hr⟩)

theorem PMat.at_can {A : PMat rows cols} (hA : PMat.Can A) (r : Fin rows) (c : Fin cols) : (A.at' r c).Can := hA _ _

theorem PMat.mulVec_spec {A : PMat rows cols} {v : PVec cols d} (hA : PMat.Can A) (hv : PVec.Can v) :
    PVec.Can (A.mulVec v) ∧ PVec.val (A.mulVec v) = matVec (PMat.val A) (PVec.val v) := by
  have key : ∀ (r : Nat) (hr : r < rows) (s : Nat) (hs : s < d), ((A.mulVec v)[r][s]).Can ∧
      ((A.mulVec v)[r][s]).toZ = ∑ c : Fin cols, (A.at' ⟨r, hr⟩ c).toZ * (v[c.val][s]).toZ := by
    intro r hr s hs
    unfold PMat.mulVec
    rw [Vector.getElem_ofFn, Vector.getElem_ofFn]
    obtain ⟨h1, h2⟩ := foldl_add_fin (fun c : Fin cols => Poly.mul (A.at' ⟨r, hr⟩ c) (v[c.val][s])) Poly.zero Poly.zero_can
      (fun c => Poly.mul_can (PMat.at_can hA _ _) (hv c.val c.isLt s hs))
    refine ⟨h1, ?_⟩
    rw [Poly.zero_toZ, zero_add] at h2
    refine Eq.trans h2 ?_
    exact Finset.sum_congr rfl fun c _ => Poly.mul_toZ (PMat.at_can hA _ _) (hv c.val c.isLt s hs)
  constructor
  · intro r hr s hs; exact (key r hr s hs).1
  · funext r
    unfold PVec.val MPoly.val matVec PMat.val
    have : ∀ s : Fin d, ((A.mulVec v)[r.val][s.val]).toZ = ∑ c : Fin cols, (A.at' r c).toZ * (v[c.val][s.val]).toZ :=
      fun s => (key r r.isLt s s.isLt).2
    simp only [this]
    rw [Finset.sum_comm]
    exact Finset.sum_congr rfl fun c _ => (Finset.mul_sum _ _ _).symm

end Raccoon
