import Verif.Mach.Alive

/-!
# The scan of `signal::disconnect(f)` over the history
-/

namespace Verif

/-- The event changes the invocation list of `g`. -/
def Event.touches (g : SigId) : Event → Bool
  | .added g' _ => g' = g
  | .removed g' _ _ => g' = g
  | .erased g' _ => g' = g
  | .moved g1 g2 => g1 = g || g2 = g
  | .destroyed g' => g' = g
  | _ => false

theorem touches_isList {ev : Event} {g : SigId} (h : ev.isList = false) : ev.touches g = false := by
  cases ev <;> simp_all [Event.isList, Event.touches]

/-- While `t'` holds the mutex of `g`, a step of another thread does not touch the list of `g`. -/
theorem others_quiet {E : Env} {w w' : World} {t t' : Tid} (I : Inv w) (h : StepR E w t w') (ht : t' ≠ t)
    {g : SigId} (hl : topLocks (w.stacks t') = some g) :
    w'.listOf g = w.listOf g ∧ ∃ evs, w'.log = evs ++ w.log ∧ ∀ ev ∈ evs, ev.touches g = false := by
  have hm : (w.sigs g).mutex = some t' := (I.i1.mtx g t').2 hl
  have ne : ∀ g', topLocks (w.stacks t) = some g' → g ≠ g' := by
    rintro g' hl rfl
    rw [(I.i1.mtx g t).2 hl] at hm
    injection hm with hm; exact ht hm.symm
  cases listEff I.i1 I.i2 h with
  | same hl hi hlog =>
    obtain ⟨evs, h1, h2⟩ := hlog
    exact ⟨hl g, evs, h1, fun ev hev => touches_isList (h2 ev hev)⟩
  | add g' s b dest rest hst hb hl hi hlog =>
    have hn := ne g' (by rw [hst]; rfl)
    refine ⟨by rw [hl, if_neg hn], [_], hlog, ?_⟩
    simp [Event.touches]; exact Ne.symm hn
  | rem g' i v ev hst hv hl hi hev hlog =>
    have hn := ne g' hst
    refine ⟨by rw [hl, if_neg hn], [_], hlog, ?_⟩
    rcases hev with rfl | ⟨req, rfl⟩ <;> simp [Event.touches] <;> exact Ne.symm hn
  | move g1 g2 hne hst h0 hd hl hi hlog =>
    have hn := ne g1 hst
    have hn2 : g ≠ g2 := by rintro rfl; rw [I.i2.live g t' hm] at hd; cases hd
    refine ⟨by rw [hl, if_neg hn, if_neg hn2], [_], hlog, ?_⟩
    simp [Event.touches]; exact ⟨Ne.symm hn, Ne.symm hn2⟩
  | destroy g' hm' hl hi hlog =>
    have hn : g ≠ g' := by rintro rfl; rw [hm'] at hm; cases hm
    refine ⟨by rw [hl, if_neg hn], [_], hlog, ?_⟩
    simp [Event.touches]; exact Ne.symm hn

/-- In this part of the history the list of `g` was changed only by taking out listeners that match `tgt`. -/
def OnlyMatching (E : Env) (w : World) (g : SigId) (tgt : Option Callable) (mid : List Event) : Prop :=
  ∀ ev ∈ mid, ev.touches g = true →
    ∃ v, ev = .erased g v ∧ v < w.nSlots ∧ slotEq E (some (w.slots v).fn) tgt = some true

/-- Result of the comparison `*slots[i] == slot` for listener `v`. -/
def World.matches (E : Env) (w : World) (tgt : Option Callable) (v : SlotId) : Option Bool :=
  slotEq E (some (w.slots v).fn) tgt

/-- Bookkeeping for a scan: it started after the history `old`, which satisfies `B`, on the list of that moment. -/
def ScanOk (B : List Event → Prop) (E : Env) (w : World) (g : SigId) (tgt : Option Callable) (log : List Event)
    (r : List SlotId × Option Nat) : Prop :=
  ∃ mid old, log = mid ++ old ∧ B old ∧ OnlyMatching E w g tgt mid ∧ (∀ v ∈ replay old g, v < w.nSlots) ∧
    r = Vec.eraseScan (w.matches E tgt) (replay old g) 0 0

/-- The bookkeeping for the thread's top frame. -/
def EraseTop (B : List Event → Prop) (E : Env) (w : World) : List Frame → Prop
  | .erase g tgt (.scan i cnt) :: _ =>
      ScanOk B E w g tgt w.log (Vec.eraseScan (w.matches E tgt) (w.listOf g) i cnt)
  | .erase g tgt (.unlock r) :: _ => ScanOk B E w g tgt w.log (w.listOf g, r)
  | _ => True

structure Inv6 (E : Env) (w : World) : Prop where
  top : ∀ t, EraseTop (fun _ => True) E w (w.stacks t)
  ret : ∀ post pre t g tgt r, w.log = post ++ .eraseRet t g tgt r :: pre →
    ScanOk (fun _ => True) E w g tgt pre (replay pre g, r)

theorem Vec.eraseScan_congr {α : Type} {p q : α → Option Bool} {l : List α} {i cnt : Nat}
    (h : ∀ x ∈ l, p x = q x) : Vec.eraseScan p l i cnt = Vec.eraseScan q l i cnt := by
  fun_induction Vec.eraseScan p l i cnt with
  | case1 l i cnt hi hp =>
    rw [Vec.eraseScan]; simp only [hi, dite_true]
    rw [← h _ (List.getElem_mem hi), hp]
  | case2 l i cnt hi hp ih =>
    rw [ih fun x hx => h x (Vec.mem_swapPop hi hx)]
    conv => rhs; rw [Vec.eraseScan]
    simp only [hi, dite_true]
    rw [← h _ (List.getElem_mem hi), hp]
  | case3 l i cnt hi hp ih =>
    rw [ih h]
    conv => rhs; rw [Vec.eraseScan]
    simp only [hi, dite_true]
    rw [← h _ (List.getElem_mem hi), hp]
  | case4 l i cnt hi => rw [Vec.eraseScan]; simp [hi]

theorem matches_fixed {E : Env} {w w' : World} {tgt : Option Callable} (F : Fixed w w') {v : SlotId}
    (hv : v < w.nSlots) : w'.matches E tgt v = w.matches E tgt v := by
  unfold World.matches; rw [F.fn v hv]

theorem OnlyMatching.mono {E : Env} {w w' : World} {g : SigId} {tgt : Option Callable} {mid : List Event}
    (F : Fixed w w') (h : OnlyMatching E w g tgt mid) : OnlyMatching E w' g tgt mid := by
  intro ev hev ht
  obtain ⟨v, h1, h2, h3⟩ := h ev hev ht
  exact ⟨v, h1, Nat.lt_of_lt_of_le h2 F.nSlots, by rw [F.fn v h2]; exact h3⟩

theorem ScanOk.mono {B : List Event → Prop} {E : Env} {w w' : World} {g : SigId} {tgt : Option Callable} {log : List Event}
    {r : List SlotId × Option Nat} (F : Fixed w w') (h : ScanOk B E w g tgt log r) : ScanOk B E w' g tgt log r := by
  obtain ⟨mid, old, h1, hB, h2, h3, h4⟩ := h
  refine ⟨mid, old, h1, hB, h2.mono F, fun v hv => Nat.lt_of_lt_of_le (h3 v hv) F.nSlots, ?_⟩
  rw [h4]
  exact Vec.eraseScan_congr fun v hv => (matches_fixed F (h3 v hv)).symm

theorem ScanOk.grow {B : List Event → Prop} {E : Env} {w : World} {g : SigId} {tgt : Option Callable} {log evs : List Event}
    {r : List SlotId × Option Nat} (h : ScanOk B E w g tgt log r) (hq : OnlyMatching E w g tgt evs) :
    ScanOk B E w g tgt (evs ++ log) r := by
  obtain ⟨mid, old, h1, hB, h2, h3, h4⟩ := h
  refine ⟨evs ++ mid, old, by rw [h1, List.append_assoc], hB, ?_, h3, h4⟩
  intro ev hev ht
  rcases List.mem_append.1 hev with hev | hev
  · exact hq ev hev ht
  · exact h2 ev hev ht

theorem OnlyMatching.quiet {E : Env} {w : World} {g : SigId} {tgt : Option Callable} {evs : List Event}
    (h : ∀ ev ∈ evs, ev.touches g = false) : OnlyMatching E w g tgt evs :=
  fun ev hev ht => by rw [h ev hev] at ht; cases ht

theorem Inv6.init (E : Env) (n : Nat) : Inv6 E (World.init n) :=
  ⟨fun _ => trivial, by simp [World.init]⟩

/-- Bookkeeping for the thread that makes the step. -/
theorem EraseTop.own {B : List Event → Prop} {E : Env} {w w' : World} {t : Tid} (I : Inv w) (I' : Inv w') (hB : B w.log)
    (C : EraseTop B E w (w.stacks t)) (h : StepR E w t w') : EraseTop B E w' (w'.stacks t) := by
  have F := fixed h
  have usr : ∀ {st : List Frame}, UserStk st → EraseTop B E w' st := by
    intro st hu; cases hu <;> trivial
  have usr' : ∀ {st : List Frame}, userCtx st = true → EraseTop B E w' st := by
    intro st hu; unfold userCtx at hu; split at hu <;> first | trivial | cases hu
  have top : ∀ {st : List Frame} {x : World}, x.stacks t = st → EraseTop B E w' st →
      EraseTop B E w' (x.stacks t) := fun e h => e ▸ h
  have pop : ∀ {f : Frame} {rest : List Frame}, w.stacks t = f :: rest → f.isCall = false → UserStk rest :=
    fun hst hf => (hst ▸ I.i1.stk t).tail hf
  have pop2 : ∀ {s : SlotId} {pc : CallPc} {m : Em} {p : EmitPc} {rest : List Frame},
      w.stacks t = .call s pc :: .emit m p :: rest → UserStk rest :=
    fun hst => OkStk.callTail (hst ▸ I.i1.stk t)
  have emt : ∀ {m : Em} {p : EmitPc} {rest : List Frame}, EraseTop B E w' (.emit m p :: rest) := trivial
  cases h
  case ub => exact (show EraseTop B E w (w.stacks t) from C)
  case hand hu hs => exact usr' hu
  case flag hu hs hh ha => exact usr' hu
  case objs hu hn hd => exact usr' hu
  case pins hu hp => exact usr' hu
  case newSig hu => exact usr' hu
  case destroy hu hg ha hm => exact usr' hu
  case discFail hu hs => exact usr' hu
  case acq f f' rest g hst hf ha hm =>
    refine top (upd_same _ _ _) ?_
    unfold Frame.acq at hf; split at hf <;> simp at hf <;> obtain ⟨rfl, rfl⟩ := hf <;> trivial
  case tst f f' rest g b hst hf hl =>
    have e1 : (w.setStack t (f' :: rest)).log = w.log := by rfl
    refine top (st := f' :: rest) (by exact upd_same _ _ _) ?_
    revert hf
    cases w.shared g b <;> intro hf <;> unfold Frame.tst at hf <;> split at hf <;> simp at hf <;> obtain ⟨rfl, rfl⟩ := hf <;> try trivial
    unfold EraseTop
    refine ⟨[], w.log, by rw [e1]; rfl, hB, (fun ev hev => by cases hev), ?_, ?_⟩
    · intro v hv
      rw [← e1, ← I'.i3.rep] at hv
      exact I'.i3.lt hv
    · rw [I'.i3.rep, e1]
  case det f f' rest g b hst hf hl =>
    have e1 : ((cloneBlk w g b).setStack t (f' :: rest)).log = w.log := by rfl
    refine top (st := f' :: rest) (by exact upd_same _ _ _) ?_
    unfold Frame.det at hf; split at hf <;> simp at hf <;> obtain ⟨rfl, rfl⟩ := hf <;> try trivial
    unfold EraseTop
    refine ⟨[], w.log, by rw [e1]; rfl, hB, (fun ev hev => by cases hev), ?_, ?_⟩
    · intro v hv
      rw [← e1, ← I'.i3.rep] at hv
      exact I'.i3.lt hv
    · rw [I'.i3.rep, e1]
  case emSupp m rest hst ha hb => exact top (upd_same _ _ _) (usr (pop hst rfl))
  case emDone m b pos acc r rest hst hp => exact top (upd_same _ _ _) (usr (pop hst rfl))
  case combThrow m b pos acc rest hst hc => exact top (upd_same _ _ _) (usr (pop hst rfl))
  case callThrow s o m b pos acc rest hst => exact top (upd_same _ _ _) (usr (pop2 hst))
  case addUnlock g s dest rest cv sv bv hst hs => exact top (upd_same _ _ _) (usr (pop hst rfl))
  case fail f rest g s hst hf => exact top (upd_same _ _ _) (usr (pop hst (Frame.allocs_isCall hf)))
  case eraseUnlock g tgt r rest hst => exact top (upd_same _ _ _) (usr (pop hst rfl))
  case exchFalse s k rest cv sv bv hst hc hs => exact top (upd_same _ _ _) (usr (pop hst rfl))
  case discUnlock s k rest g hst => exact top (upd_same _ _ _) trivial
  case discDrop s k rest g cv sv bv hst hs => exact top (upd_same _ _ _) (usr (pop hst rfl))
  case movUnlock g' g rest hst => exact top (upd_same _ _ _) (usr (pop hst rfl))
  case eraseEnd g tgt i cnt rest b hst hl hi =>
    refine top (upd_same _ _ _) ?_
    rw [hst] at C
    simp only [EraseTop] at C ⊢
    have hlo : w.listOf g = w.blks b := listOf_eq hl
    rw [Vec.eraseScan, dif_neg (by rw [hlo]; rw [List.getElem?_eq_none_iff] at hi; omega)] at C
    exact C.mono F
  case eraseThrow g tgt i cnt rest b s hst hl hi he =>
    refine top (upd_same _ _ _) ?_
    rw [hst] at C
    simp only [EraseTop] at C ⊢
    have hlo : w.listOf g = w.blks b := listOf_eq hl
    rw [← hlo, List.getElem?_eq_some_iff] at hi
    obtain ⟨hi, rfl⟩ := hi
    rw [Vec.eraseScan] at C
    simp only [hi, dite_true, World.matches, he] at C
    exact C.mono F
  case eraseMiss g tgt i cnt rest b s hst hl hi he =>
    refine top (upd_same _ _ _) ?_
    rw [hst] at C
    simp only [EraseTop] at C ⊢
    have hlo : w.listOf g = w.blks b := listOf_eq hl
    rw [← hlo, List.getElem?_eq_some_iff] at hi
    obtain ⟨hi, rfl⟩ := hi
    rw [Vec.eraseScan] at C
    simp only [hi, dite_true, World.matches, he] at C
    exact C.mono F
  case eraseHit g tgt i cnt rest b s hst hl hi he =>
    refine top (upd_same _ _ _) ?_
    rw [hst] at C
    simp only [EraseTop] at C ⊢
    have hlo : w.listOf g = w.blks b := listOf_eq hl
    have hi' := hi
    rw [← hlo, List.getElem?_eq_some_iff] at hi
    obtain ⟨hi, hsi⟩ := hi
    have hmem : s ∈ w.listOf g := hsi ▸ List.getElem_mem hi
    rw [Vec.eraseScan] at C
    simp only [hi, dite_true, hsi] at C
    rw [show w.matches E tgt s = some true from he] at C
    simp only at C
    have el : (((removeAt w b i).setStack t (.erase g tgt (.scan i (cnt + 1)) :: rest)).emitEv
        (.erased g s)).log = [.erased g s] ++ w.log := by
      simp only [World.emitEv, World.setStack, (removeAt_same _ _ _).2.2.2.2.2.2.2.2.2.2.1]; rfl
    have hlist : (((removeAt w b i).setStack t (.erase g tgt (.scan i (cnt + 1)) :: rest)).emitEv
        (.erased g s)).listOf g = Vec.swapPop (w.listOf g) i := by
      have := listOf_setBlk (w' := ((removeAt w b i).setStack t (.erase g tgt (.scan i (cnt + 1)) :: rest)).emitEv
        (.erased g s)) I.i2 hl (removeAt_same _ _ _).1 (removeAt_blks w b i (by rw [← hlo]; exact hi)) g
      rw [this, if_pos rfl, hlo]
    rw [el, hlist]
    have hsub : ∀ x ∈ Vec.swapPop (w.listOf g) i, x < w.nSlots := fun x hx =>
      I.i3.lt (Vec.mem_swapPop hi hx)
    rw [Vec.eraseScan_congr fun x hx => matches_fixed F (hsub x hx)]
    refine (C.mono F).grow ?_
    intro ev hev _
    simp at hev; subst hev
    have hs := I.i3.lt hmem
    exact ⟨s, rfl, Nat.lt_of_lt_of_le hs F.nSlots, by rw [F.fn s hs]; exact he⟩
  all_goals exact top (upd_same _ _ _) trivial

theorem log_one {ev0 ev : Event} {log post pre : List Event} (h : ev0 :: log = post ++ ev :: pre) :
    (ev0 = ev ∧ pre = log) ∨ ∃ post', log = post' ++ ev :: pre := by
  cases post with
  | nil => injection h with h1 h2; exact .inl ⟨h1, h2.symm⟩
  | cons x post => injection h with h1 h2; exact .inr ⟨post, h2⟩

theorem ScanOk.event {E : Env} {w w' : World} {t : Tid} (I : Inv w) (K : Inv6 E w) (h : StepR E w t w')
    {post pre : List Event} {t' : Tid} {g : SigId} {tgt : Option Callable} {r : Option Nat}
    (e : w'.log = post ++ .eraseRet t' g tgt r :: pre) : ScanOk (fun _ => True) E w g tgt pre (replay pre g, r) := by
  have old : ∀ {post}, w.log = post ++ .eraseRet t' g tgt r :: pre → ScanOk (fun _ => True) E w g tgt pre (replay pre g, r) :=
    fun e => K.ret _ _ _ _ _ _ e
  have one : ∀ {ev post}, ev :: w.log = post ++ .eraseRet t' g tgt r :: pre → ev ≠ .eraseRet t' g tgt r →
      ScanOk (fun _ => True) E w g tgt pre (replay pre g, r) := by
    intro ev post e hn
    rcases log_one e with ⟨h, -⟩ | ⟨post, h⟩
    · exact absurd h hn
    · exact old h
  cases h
  case eraseUnlock g0 tgt0 r0 rest hst =>
    rcases log_one e with ⟨h1, rfl⟩ | ⟨post, h1⟩
    · injection h1 with h1 h2 h3 h4
      subst h1 h2 h3 h4
      have := K.top t
      rw [hst] at this
      simp only [EraseTop, I.i3.rep] at this
      exact this
    · exact old h1
  case tst f f' rest g b hst hf hl =>
    have e1 : (w.setStack t (f' :: rest)).log = w.log := by rfl
    rw [e1] at e; exact old e
  case det f f' rest g b hst hf hl =>
    have e1 : ((cloneBlk w g b).setStack t (f' :: rest)).log = w.log := by rfl
    rw [e1] at e; exact old e
  case eraseHit g0 tgt i cnt rest b s hst hl hi he =>
    have el : (((removeAt w b i).setStack t (.erase g0 tgt (.scan i (cnt + 1)) :: rest)).emitEv
        (.erased g0 s)).log = .erased g0 s :: w.log := by
      simp only [World.emitEv, World.setStack, (removeAt_same _ _ _).2.2.2.2.2.2.2.2.2.2.1]
    rw [el] at e; exact one e (by simp)
  case discWrite s v k rest g b hst hl hi =>
    have el : (((removeAt w b (w.slots s).index).setStack t
                (.disc s k (.crit g .unlock) :: rest)).emitEv (.removed g s v)).log = .removed g s v :: w.log := by
      simp only [World.emitEv, World.setStack, (removeAt_same _ _ _).2.2.2.2.2.2.2.2.2.2.1]
    rw [el] at e; exact one e (by simp)
  case exchFalse s k rest cv sv bv hst hc hs =>
    rcases log_one e with ⟨h, -⟩ | ⟨post, h⟩
    · cases h
    · exact one h (by simp)
  case callThrow s o m b pos acc rest hst =>
    rcases log_one e with ⟨h, -⟩ | ⟨post, h⟩
    · cases h
    · exact one h (by simp)
  all_goals first | exact old e | exact one e (by simp)

/-- Bookkeeping for the other threads. -/
theorem EraseTop.other {B : List Event → Prop} {E : Env} {w w' : World} {t t' : Tid} (I : Inv w)
    (C : EraseTop B E w (w.stacks t')) (h : StepR E w t w') (ht : t' ≠ t) : EraseTop B E w' (w'.stacks t') := by
  have F := fixed h
  rw [stacks_other h ht]
  unfold EraseTop at C ⊢
  split
  · rename_i g tgt i cnt rest hst
    rw [hst] at C
    simp only at C
    obtain ⟨h1, evs, h2, h3⟩ := others_quiet I h ht (g := g) (by rw [hst]; rfl)
    rw [h1, h2]
    rw [Vec.eraseScan_congr fun x hx => matches_fixed F (I.i3.lt hx)]
    exact (C.mono F).grow (.quiet h3)
  · rename_i g tgt r rest hst
    rw [hst] at C
    simp only at C
    obtain ⟨h1, evs, h2, h3⟩ := others_quiet I h ht (g := g) (by rw [hst]; rfl)
    rw [h1, h2]
    exact (C.mono F).grow (.quiet h3)
  · trivial

theorem Inv6.step {E : Env} {w w' : World} {t : Tid} (I : Inv w) (I' : Inv w') (K : Inv6 E w)
    (h : StepR E w t w') : Inv6 E w' := by
  refine ⟨fun t' => ?_, fun post pre t' g tgt r e => (ScanOk.event I K h e).mono (fixed h)⟩
  by_cases ht : t' = t
  · subst ht; exact EraseTop.own I I' trivial (K.top _) h
  · exact (K.top t').other I h ht

theorem Reachable.inv6 {E : Env} {w : World} (h : Reachable E w) : Inv6 E w := by
  obtain ⟨n, h⟩ := h
  have : Full w ∧ Inv6 E w := by
    refine h.induct (I := fun w => Full w ∧ Inv6 E w) ⟨.init n, .init E n⟩ ?_
    intro w1 w2 l ⟨U, K⟩ _ hst
    obtain ⟨hub, ht, hr⟩ := step_inv hst
    have U' := U.step hub ht hr
    exact ⟨U', K.step U.i U'.i hr⟩
  exact this.2

end Verif
