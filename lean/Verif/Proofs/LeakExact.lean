import Verif.Spec.Trace
import Verif.Proofs.LeakErase3
import Verif.Proofs.LeakTrace
/-!
# The observations of the arithmetic, in closed form
-/
namespace Raccoon
open Lk

/-- A completed run shows exactly `t`, and its result satisfies `Q`. -/
def Lk.Shows {α : Type u} (p : Lk α) (t : List Ev) (Q : α → Prop := fun _ => True) : Prop := ∀ a, p.val = .ok a → p.tr = t ∧ Q a

namespace Lk.Shows
variable {α β : Type u}

theorem pure {a : α} {Q : α → Prop} (h : Q a) : (Pure.pure a : Lk α).Shows [] Q := fun b hb => ⟨rfl, by cases hb; exact h⟩
theorem pureT {a : α} : (Pure.pure a : Lk α).Shows [] := pure trivial
theorem lift {r : Res α} : (Lk.lift r).Shows [] := fun _ _ => ⟨rfl, trivial⟩
theorem bindQ {p : Lk α} {f : α → Lk β} {t u : List Ev} {Q : α → Prop} {Q' : β → Prop} (h : p.Shows t Q)
    (hf : ∀ a, Q a → (f a).Shows u Q') : (p >>= f).Shows (t ++ u) Q' := by
  intro b hb
  obtain ⟨a, ha, hb⟩ := bind_val_ok hb
  obtain ⟨h1, h2⟩ := h a ha
  obtain ⟨h3, h4⟩ := hf a h2 b hb
  exact ⟨by rw [tr_bind_ok ha, h1, h3], h4⟩
theorem bind {p : Lk α} {f : α → Lk β} {t u : List Ev} {Q' : β → Prop} (h : p.Shows t) (hf : ∀ a, (f a).Shows u Q') :
    (p >>= f).Shows (t ++ u) Q' := bindQ h fun a _ => hf a
theorem tick {p : Lk α} {e : Ev} {t : List Ev} {Q : α → Prop} (h : p.Shows t Q) : (Lk.tick e p).Shows (e :: t) Q :=
  fun a ha => ⟨by show e :: p.tr = _; rw [(h a ha).1], (h a ha).2⟩
theorem branch {c : Prop} [Decidable c] {x y : Lk α} {t u : List Ev} {Q : α → Prop} (hx : c → x.Shows t Q) (hy : ¬ c → y.Shows u Q) :
    (Lk.branch c x y).Shows (if c then .br true :: t else .br false :: u) Q := by
  unfold Lk.branch
  by_cases h : c
  · simp only [h, if_true, decide_true]; exact (hx h).tick
  · simp only [h, if_false, decide_false]; exact (hy h).tick
theorem cast {p : Lk α} {t u : List Ev} {Q : α → Prop} (h : p.Shows t Q) (e : t = u) : p.Shows u Q := e ▸ h
theorem forget {p : Lk α} {t : List Ev} {Q : α → Prop} (h : p.Shows t Q) : p.Shows t := fun a ha => ⟨(h a ha).1, trivial⟩
theorem rd {n : Nat} (v : Vector α n) (i : Nat) : (rdL v i).Shows [.ix i] := fun _ _ => ⟨rfl, trivial⟩
theorem wr {n : Nat} (v : Vector α n) (i : Nat) (x : α) : (wrL v i x).Shows [.ix i] := fun _ _ => ⟨rfl, trivial⟩

theorem absorb (x : Xof) {b : List U8} {n : Nat} (h : b.length = n) : (x.absorbL b).Shows [.len n] := fun _ _ => ⟨by subst h; rfl, trivial⟩
theorem squeeze (x : Xof) (n : Nat) : (x.squeezeL n).Shows [.len n] := fun _ _ => ⟨rfl, trivial⟩
theorem fromLe (w : Nat) {b : List U8} {n : Nat} (h : b.length = n) : (fromLeBytesL w b).Shows (.br (decide (n < w / 8)) :: Trace.bytes (min (w / 8) n)) :=
  fun _ _ => ⟨by subst h; rfl, trivial⟩
theorem writeSpan (b : List U8) (o : Nat) {x : List U8} {n : Nat} (h : x.length = n) :
    (writeSpanL b o x).Shows [.ix o, .len n] fun r => r.length = b.length := fun _ hr => ⟨by subst h; rfl, writeSpan_len hr⟩
theorem squeezeQ (x : Xof) (n : Nat) : (x.squeezeL n).Shows [.len n] fun r => r.1.length = n :=
  fun _ hr => ⟨rfl, by cases hr; simp [Xof.squeeze]⟩
theorem readQ (x : Prng) (n : Nat) : (x.readL n).Shows [.len n] fun r => r.1.length = n :=
  fun _ hr => ⟨rfl, by cases hr; simp [Prng.read, Xof.squeeze]⟩
theorem subspan {γ : Type} (b : List γ) (o c : Nat) : (subspanL b o c).Shows [.ix o, .len c] fun p => p.length = c := by
  intro p hp
  refine ⟨rfl, ?_⟩
  obtain ⟨h1, rfl⟩ := subspan_eq_ok.1 hp
  simp at h1 ⊢; omega

/-- A loop with an invariant. -/
theorem foldQ {σ : Type u} {body : Nat → σ → Lk σ} {t : Nat → List Ev} (I : Nat → σ → Prop) (g : Nat → Nat) : ∀ (n a : Nat) (s : σ), I a s →
    (∀ i s, a ≤ i → i < a + n → I i s → (body (g i) s).Shows (t i) (I (i + 1))) →
    (((List.range' a n).map g).foldlM (fun s i => Lk.tick (.br true) (body i s)) s).Shows
      ((List.range' a n).flatMap fun i => .br true :: t i) (I (a + n))
  | 0, a, s, h0, _ => pure h0
  | n + 1, a, s, h0, hs => by
    rw [List.range'_succ, List.map_cons, List.foldlM_cons, List.flatMap_cons]
    refine bindQ (hs a s (le_refl _) (by omega) h0).tick fun s' h' => ?_
    rw [show a + (n + 1) = a + 1 + n by omega]
    exact foldQ I g n (a + 1) s' h' fun i s h1 h2 => hs i s (by omega) (by omega)

theorem range'_map (lo n step : Nat) : List.range' lo n step = (List.range' 0 n).map fun i => lo + step * i := by
  refine List.ext_getElem (by simp) fun i h1 h2 => ?_
  simp
theorem forQ {σ : Type u} {body : Nat → σ → Lk σ} {s : σ} {t : Nat → List Ev} (I : Nat → σ → Prop) {lo hi step n : Nat}
    (hn : (hi - lo + step - 1) / step = n) (h0 : I 0 s)
    (hs : ∀ i s, i < n → I i s → (body (lo + step * i) s).Shows (t i) (I (i + 1))) : (forL lo hi step body s).Shows (Trace.upto n t) (I n) := by
  unfold forL Trace.upto Trace.loop
  rw [hn, range'_map, List.range_eq_range' (n := n)]
  refine bindQ (Q := I n) ?_ fun s h => (pure h).tick
  have := foldQ (body := body) I (fun i => lo + step * i) n 0 s h0 fun i s _ h2 => hs i s (by omega)
  rwa [Nat.zero_add] at this

theorem forT {σ : Type u} {body : Nat → σ → Lk σ} {s : σ} {t : Nat → List Ev} {lo hi step n : Nat}
    (hn : (hi - lo + step - 1) / step = n) (hs : ∀ i s, i < n → (body (lo + step * i) s).Shows (t i)) :
    (forL lo hi step body s).Shows (Trace.upto n t) :=
  forQ (fun _ _ => True) hn trivial fun i s h _ => hs i s h
theorem for0 {σ : Type u} {body : Nat → σ → Lk σ} {s : σ} {t : Nat → List Ev} {n : Nat}
    (hs : ∀ i s, (body i s).Shows (t i)) : (forL 0 n 1 body s).Shows (Trace.upto n t) :=
  forT (by omega) fun i s _ => by rw [Nat.zero_add, Nat.one_mul]; exact hs i s
theorem gen {n : Nat} {init : Vector α n} {g : Nat → Lk α} {t : Nat → List Ev} (h : ∀ i, (g i).Shows (t i)) :
    (genL init g).Shows (Trace.fill n t) :=
  for0 fun i _ => (h i).bind fun _ => wr _ _ _

end Lk.Shows

open Lk.Shows

theorem shows_shrL (x : U128) (n : Nat) : (x.shrL n).Shows (Trace.shift n) := by
  unfold U128.shrL Trace.shift
  refine (branch (fun _ => pureT) fun _ => branch (fun _ => pureT) fun _ => branch (fun _ => pureT) fun _ =>
    branch (fun _ => pureT) fun _ => pureT).cast ?_
  split_ifs <;> rfl
theorem shows_shlL (x : U128) (n : Nat) : (x.shlL n).Shows (Trace.shift n) := by
  unfold U128.shlL Trace.shift
  refine (branch (fun _ => pureT) fun _ => branch (fun _ => pureT) fun _ => branch (fun _ => pureT) fun _ =>
    branch (fun _ => pureT) fun _ => pureT).cast ?_
  split_ifs <;> rfl
theorem shows_barrett (v : U128) : (barrettReduceL v).Shows Trace.barrett := by
  unfold barrettReduceL
  refine ((shows_shrL _ _).bind fun _ => (shows_shrL _ _).bind fun _ => (shows_shrL _ _).bind fun _ => (shows_shrL _ _).bind fun _ =>
    (shows_shlL _ _).bind fun _ => (shows_shlL _ _).bind fun _ => (shows_shrL _ _).bind fun _ => pureT).cast ?_
  decide
attribute [local irreducible] Trace.barrett Lk.Shows

theorem shows_zqMul (a b : Zq) : (a.mulL b).Shows Trace.barrett :=
  ((shows_barrett _).bind fun _ => pureT).cast (List.append_nil _)
theorem shows_zqShl (a : Zq) (n : Nat) : (a.shlL n).Shows Trace.barrett :=
  (lift.bind fun _ => (shows_barrett _).bind fun _ => pureT).cast (by simp)

namespace Poly
theorem shows_addL (a b : Poly) : (addL a b).Shows Trace.polyOp2 := gen fun _ => (rd _ _).bind fun _ => (rd _ _).bind fun _ => pureT
theorem shows_subL (a b : Poly) : (subL a b).Shows Trace.polyOp2 := gen fun _ => (rd _ _).bind fun _ => (rd _ _).bind fun _ => pureT
theorem shows_addModL (q' : U64) (a b : Poly) : (addModL q' a b).Shows Trace.polyOp2 :=
  gen fun _ => (rd _ _).bind fun _ => (rd _ _).bind fun _ => pureT
theorem shows_subModL (q' : U64) (a b : Poly) : (subModL q' a b).Shows Trace.polyOp2 :=
  gen fun _ => (rd _ _).bind fun _ => (rd _ _).bind fun _ => pureT
theorem shows_mulL (a b : Poly) : (mulL a b).Shows Trace.polyMul :=
  gen fun _ => ((rd _ _).bind fun _ => (rd _ _).bind fun _ => shows_zqMul _ _)
theorem shows_roundingShrL (n : Nat) (a : Poly) : (roundingShrL n a).Shows Trace.polyOp1 := gen fun _ => (rd _ _).bind fun _ => pureT
theorem shows_centerL (q' : U64) (a : Poly) : (centerL q' a).Shows Trace.polyOp1 := gen fun _ => (rd _ _).bind fun _ => lift
theorem shows_shlL (a : Poly) (n : Nat) : (a.shlL n).Shows Trace.polyShl := gen fun _ => (rd _ _).bind fun _ => shows_zqShl _ _
theorem shows_eqL (a b : Poly) : (eqL a b).Shows Trace.polyEq := for0 fun _ _ => (rd _ _).bind fun _ => (rd _ _).bind fun _ => pureT

theorem blocks {l : Nat} (hl : l < 9) : (512 - 0 + (1 <<< l) <<< 1 - 1) / (1 <<< l) <<< 1 = 2 ^ (8 - l) := by
  revert l; decide
theorem blockIx (l b : Nat) : (0 + ((1 <<< l) <<< 1) * b) >>> (l + 1) = b := by
  rw [Nat.shiftRight_eq_div_pow, Nat.zero_add, Nat.shiftLeft_eq, Nat.shiftLeft_eq, Nat.one_mul, pow_one, ← pow_succ]
  exact Nat.mul_div_cancel_left _ (by positivity)

theorem uptoEq {n : Nat} {t t' : Nat → List Ev} (h : ∀ i, i < n → t i = t' i) : Trace.upto n t = Trace.upto n t' := by
  unfold Trace.upto Trace.loop
  congr 1
  refine List.flatMap_congr fun i hi => ?_
  rw [h i (List.mem_range.1 hi)]

/-- A loop over consecutive indices. -/
theorem consec {σ : Type u} {body : Nat → σ → Lk σ} {s : σ} {t : Nat → List Ev} (a n : Nat) (hs : ∀ i s, (body i s).Shows (t i)) :
    (forL a (a + n) 1 body s).Shows (Trace.loop (List.range' a n) t) := by
  refine (forT (t := fun i => t (a + i)) (n := n) (by omega) fun i s _ => by rw [Nat.one_mul]; exact hs _ _).cast ?_
  unfold Trace.upto Trace.loop
  rw [List.range'_eq_map_range, List.flatMap_map]

theorem shows_nttButterfly (len : Nat) (z : Zq) (i : Nat) (f : Poly) : (nttButterflyL len z i f).Shows
    (.ix (i + len) :: Trace.barrett ++ [.ix i, .ix (i + len), .ix i, .ix i]) := by
  unfold nttButterflyL
  exact (Lk.Shows.bind (rd _ _) fun _ => Lk.Shows.bind (shows_zqMul _ _) fun _ => Lk.Shows.bind (rd _ _) fun _ =>
    Lk.Shows.bind (wr _ _ _) fun _ => Lk.Shows.bind (rd _ _) fun _ => wr _ _ _).cast (by simp)
theorem shows_inttButterfly (len : Nat) (z : Zq) (i : Nat) (f : Poly) : (inttButterflyL len z i f).Shows
    ([.ix i, .ix i, .ix (i + len), .ix i, .ix (i + len), .ix (i + len), .ix (i + len)] ++ Trace.barrett ++ [.ix (i + len)]) := by
  unfold inttButterflyL
  exact (Lk.Shows.bind (rd _ _) fun _ => Lk.Shows.bind (rd _ _) fun _ => Lk.Shows.bind (rd _ _) fun _ =>
    Lk.Shows.bind (wr _ _ _) fun _ => Lk.Shows.bind (rd _ _) fun _ => Lk.Shows.bind (wr _ _ _) fun _ => Lk.Shows.bind (rd _ _) fun _ =>
    Lk.Shows.bind (shows_zqMul _ _) fun _ => wr _ _ _).cast (by simp)
theorem shows_nttL (f : Poly) : (nttLk f).Shows Trace.ntt := by
  unfold nttLk Trace.ntt
  refine forT (by decide) fun j f hj => ?_
  rw [Nat.zero_add, Nat.one_mul]
  unfold nttLayerL
  refine forT ((blocks (l := 8 - j) (by omega)).trans (by congr 1; omega)) fun b f _ => ?_
  dsimp only
  refine ((rd _ _).bind fun z => consec _ _ fun i f => shows_nttButterfly _ z i f).cast ?_
  rw [blockIx]
  have e : 512 >>> (8 - j + 1) = 2 ^ j := by clear * - hj; revert j; decide
  have e1 : 1 <<< (8 - j) = 2 ^ (8 - j) := by rw [Nat.shiftLeft_eq, Nat.one_mul]
  rw [e, e1, Nat.shiftLeft_eq, pow_one, Nat.zero_add, Nat.mul_comm (2 ^ (8 - j)) 2]
  rfl

theorem shows_inttL (f : Poly) : (inttLk f).Shows Trace.intt := by
  unfold inttLk Trace.intt
  refine Lk.Shows.bind ?_ fun f => gen fun _ => (rd _ _).bind fun _ => shows_zqMul _ _
  refine forT (by decide) fun l f hl => ?_
  rw [Nat.zero_add, Nat.one_mul]
  unfold inttLayerL
  refine forT (blocks (l := l) (by omega)) fun b f _ => ?_
  dsimp only
  refine ((rd _ _).bind fun z => consec _ _ fun i f => shows_inttButterfly _ z i f).cast ?_
  rw [blockIx]
  have e : 512 >>> l = 2 ^ (9 - l) := by clear * - hl; revert l; decide
  have e1 : 1 <<< l = 2 ^ l := by rw [Nat.shiftLeft_eq, Nat.one_mul]
  rw [e, e1, Nat.shiftLeft_eq, pow_one, Nat.zero_add, Nat.mul_comm (2 ^ l) 2]
  rfl
end Poly

attribute [local irreducible] Trace.polyOp1 Trace.polyOp2 Trace.polyMul Trace.polyShl Trace.polyEq Trace.ntt Trace.intt

theorem gen2 {α β : Type} {n : Nat} {init : Vector β n} (a b : Vector α n) {op : α → α → Lk β} {t : List Ev} (h : ∀ x y, (op x y).Shows t) :
    (genL init fun i => do let x ← rdL a i; let y ← rdL b i; op x y).Shows (Trace.each2 n t) :=
  gen fun i => (Lk.Shows.bind (rd a i) fun x => Lk.Shows.bind (rd b i) fun y => h x y).cast (by simp)
theorem gen1 {α β : Type} {n : Nat} {init : Vector β n} (a : Vector α n) {op : α → Lk β} {t : List Ev} (h : ∀ x, (op x).Shows t) :
    (genL init fun i => do let x ← rdL a i; op x).Shows (Trace.each1 n t) :=
  gen fun _ => Lk.Shows.bind (rd _ _) fun _ => h _
theorem eqGen {α : Type} {n : Nat} (a b : Vector α n) {op : α → α → Lk Bool} {t : List Ev} (h : ∀ x y, (op x y).Shows t) :
    (forL 0 n 1 (fun i res => do let x ← rdL a i; let y ← rdL b i; let e ← op x y; pure (res && e)) true).Shows (Trace.eachEq n t) :=
  for0 fun _ _ => (Lk.Shows.bind (rd _ _) fun _ => Lk.Shows.bind (rd _ _) fun _ => Lk.Shows.bind (h _ _) fun _ => pureT).cast (by simp)

namespace MPoly
theorem shows_addL (a b : MPoly d) : (addL a b).Shows (Trace.each2 d Trace.polyOp2) := gen2 a b Poly.shows_addL
theorem shows_subL (a b : MPoly d) : (subL a b).Shows (Trace.each2 d Trace.polyOp2) := gen2 a b Poly.shows_subL
theorem shows_subModL (q' : U64) (a b : MPoly d) : (subModL q' a b).Shows (Trace.each2 d Trace.polyOp2) := gen2 a b (Poly.shows_subModL q')
theorem shows_roundingShrL (n : Nat) (a : MPoly d) : (roundingShrL n a).Shows (Trace.each1 d Trace.polyOp1) := gen1 a (Poly.shows_roundingShrL n)
theorem shows_shlL (a : MPoly d) (n : Nat) : (shlL a n).Shows (Trace.each1 d Trace.polyShl) := gen1 a fun x => Poly.shows_shlL x n
theorem shows_eqL (a b : MPoly d) : (eqL a b).Shows (Trace.eachEq d Trace.polyEq) := eqGen a b Poly.shows_eqL
theorem shows_nttL (a : MPoly d) : (nttLk a).Shows (Trace.each1 d Trace.ntt) := gen1 a Poly.shows_nttL
theorem shows_inttL (a : MPoly d) : (inttLk a).Shows (Trace.each1 d Trace.intt) := gen1 a Poly.shows_inttL
theorem shows_decodeL (a : MPoly d) : (decodeL a).Shows (Trace.decode d) := by
  unfold decodeL Trace.decode
  refine for0 fun i s => (Lk.Shows.bind (rd _ _) fun _ => Lk.Shows.bind (rd _ _) fun _ => Lk.Shows.bind (Poly.shows_addL _ _) fun _ =>
    wr _ _ _).cast ?_
  simp
end MPoly

namespace PVec
theorem shows_addL (a b : PVec k d) : (addL a b).Shows (Trace.each2 k (Trace.each2 d Trace.polyOp2)) := gen2 a b MPoly.shows_addL
theorem shows_subL (a b : PVec k d) : (subL a b).Shows (Trace.each2 k (Trace.each2 d Trace.polyOp2)) := gen2 a b MPoly.shows_subL
theorem shows_subModL (q' : U64) (a b : PVec k d) : (subModL q' a b).Shows (Trace.each2 k (Trace.each2 d Trace.polyOp2)) :=
  gen2 a b (MPoly.shows_subModL q')
theorem shows_roundingShrL (n : Nat) (a : PVec k d) : (roundingShrL n a).Shows (Trace.each1 k (Trace.each1 d Trace.polyOp1)) :=
  gen1 a (MPoly.shows_roundingShrL n)
theorem shows_shlL (a : PVec k d) (n : Nat) : (shlL a n).Shows (Trace.each1 k (Trace.each1 d Trace.polyShl)) :=
  gen1 a fun x => MPoly.shows_shlL x n
theorem shows_mulPolyL (a : PVec k d) (c : Poly) : (mulPolyL a c).Shows (Trace.scale k d) := by
  unfold mulPolyL Trace.scale
  exact gen fun r => gen fun s => (Lk.Shows.bind (rd _ _) fun _ => Lk.Shows.bind (rd _ _) fun _ => Poly.shows_mulL _ _).cast (by simp)
theorem shows_eqL (a b : PVec k d) : (eqL a b).Shows (Trace.eachEq k (Trace.eachEq d Trace.polyEq)) := eqGen a b MPoly.shows_eqL
theorem shows_nttL (a : PVec k d) : (nttLk a).Shows (Trace.each1 k (Trace.each1 d Trace.ntt)) := gen1 a MPoly.shows_nttL
theorem shows_inttL (a : PVec k d) : (inttLk a).Shows (Trace.each1 k (Trace.each1 d Trace.intt)) := gen1 a MPoly.shows_inttL
theorem shows_decodeL (a : PVec k d) : (decodeL a).Shows (Trace.each1 k (Trace.decode d)) := gen1 a MPoly.shows_decodeL
end PVec

theorem PMat.shows_mulVecL (A : PMat rows cols) (v : PVec cols d) : (mulVecL A v).Shows (Trace.mulVec rows cols d) := by
  unfold mulVecL Trace.mulVec
  exact for0 fun _ _ => for0 fun _ _ => for0 fun _ _ => ((rd _ _).bind fun _ => (rd _ _).bind fun _ => (rd _ _).bind fun _ =>
    (Poly.shows_mulL _ _).bind fun _ => (rd _ _).bind fun _ => (rd _ _).bind fun _ => (Poly.shows_addL _ _).bind fun _ =>
    (wr _ _ _).bind fun _ => wr _ _ _).cast (by simp)

theorem shows_chalHash (E : Ext) (κ : Nat) (w : PVec k 1) (μ : List U8) :
    (chalHashL E κ w μ).Shows (Trace.chalHash k μ.length (2 * κ / 8)) fun c => c.length = 2 * κ / 8 := by
  unfold chalHashL Trace.chalHash
  refine bindQ (Q := fun s : Xof × Vector U8 136 × Nat => s.2.2 = (k * 512 + 7) % 136 + 1)
    (forQ (lo := 0) (hi := k * 512) (step := 1) (n := k * 512)
      (fun i (s : Xof × Vector U8 136 × Nat) => s.2.2 = (i + 7) % 136 + 1) (by omega) (by rfl) ?_ ) ?_
  · rintro i ⟨xof, buf, off⟩ hi h
    dsimp only at h
    subst h
    rw [Nat.zero_add, Nat.one_mul]
    unfold chalHashStepL
    dsimp only
    refine (bindQ (Q := fun r => r.2 = (8 + i) % 136) (u := [.ix (i / 512), .ix 0, .ix (i % 512), .ix ((8 + i) % 136)])
      (branch (t := [.len 136]) (u := []) (fun h => ?_) (fun h => ?_)) ?_).cast ?_
    · exact Lk.Shows.bind (absorb _ (by simp)) fun _ => pure (by show 0 = _; omega)
    · exact pure (by show _ = _; omega)
    · rintro ⟨xof', off'⟩ h'
      dsimp only at h'
      subst h'
      exact (rd _ _).bind fun _ => (rd _ _).bind fun _ => (rd _ _).bind fun _ => (wr _ _ _).bind fun _ => pure (by dsimp only; omega)
    · by_cases h : (8 + i) % 136 = 0
      · rw [if_pos h, if_pos (by omega)]
      · rw [if_neg h, if_neg (by omega)]
  · rintro ⟨xof, buf, off⟩ h
    dsimp only at h
    subst h
    dsimp only
    generalize (k * 512 + 7) % 136 = n
    refine Lk.Shows.bind (t := [.br true, .ix 0, .len (n + 1), .len (n + 1)]) (u := [.len μ.length, .len (2 * κ / 8)])
      ((branch (t := [.ix 0, .len (n + 1)] ++ [.len (n + 1)]) (u := []) (fun _ => ?_) (fun h => ?_)).cast ?_) fun _ =>
      Lk.Shows.bind (absorb _ rfl) fun _ => bindQ (t := [.len (2 * κ / 8)]) (u := []) (squeezeQ _ _) fun _ h => pure h
    · exact bindQ (Lk.Shows.subspan _ _ _) fun p hp => absorb _ hp
    · omega
    · rw [if_pos (by omega)]; rfl
end Raccoon
