import Verif.Mach.Mem
import Verif.Mach.Alive

/-!
# The computed races are exactly the data races of the trace
-/

namespace Verif

variable {c : Sync} {tr : List Op}

def HB.of (c : Sync) (tr : List Op) : HB := tr.foldl (fun h x => h.op c x.1 x.2) HB.init

theorem of_snoc (x : Op) : HB.of c (tr ++ [x]) = (HB.of c tr).op c x.1 x.2 := by
  unfold HB.of; rw [List.foldl_append]; rfl

theorem of_run (t : Tid) (ops : List Mem) : HB.of c (tr ++ ops.map (t, ·)) = (HB.of c tr).run c t ops := by
  unfold HB.of HB.run; rw [List.foldl_append, List.foldl_map]

theorem Before.lt {i j : Nat} (h : Before c tr i j) : i < j ∧ j < tr.length := by
  induction h with
  | seq hij _ hj => exact ⟨hij, (List.getElem?_eq_some_iff.1 hj).1⟩
  | sync hij _ hj _ => exact ⟨hij, (List.getElem?_eq_some_iff.1 hj).1⟩
  | trans _ _ h1 h2 => exact ⟨Nat.lt_trans h1.1 h2.1, h2.2⟩

theorem get_app {i : Nat} {x : Op} (tr' : List Op) (h : tr[i]? = some x) : (tr ++ tr')[i]? = some x := by
  rw [List.getElem?_append_left (List.getElem?_eq_some_iff.1 h).1]; exact h

theorem Before.mono {i j : Nat} (tr' : List Op) (h : Before c tr i j) : Before c (tr ++ tr') i j := by
  induction h with
  | seq hij hi hj => exact .seq hij (get_app _ hi) (get_app _ hj)
  | sync hij hi hj he => exact .sync hij (get_app _ hi) (get_app _ hj) he
  | trans _ _ h1 h2 => exact .trans h1 h2

theorem Before.restrict {i j : Nat} {tr' : List Op} (h : Before c (tr ++ tr') i j) (hj : j < tr.length) : Before c tr i j := by
  induction h with
  | seq hij hi hj' =>
    rw [List.getElem?_append_left (by omega)] at hi hj'
    exact .seq hij hi hj'
  | sync hij hi hj' he =>
    rw [List.getElem?_append_left (by omega)] at hi hj'
    exact .sync hij hi hj' he
  | trans h1 h2 i1 i2 => exact .trans (i1 (by have := h2.lt; omega)) (i2 hj)

theorem Before.last {i k : Nat} (h : Before c tr i k) : ∃ j t' o' t o, j < k ∧ tr[j]? = some (t', o') ∧ tr[k]? = some (t, o) ∧
    (i = j ∨ Before c tr i j) ∧ (t' = t ∨ c.edge o' o = true) := by
  induction h with
  | seq hij hi hj => exact ⟨_, _, _, _, _, hij, hi, hj, .inl rfl, .inl rfl⟩
  | sync hij hi hj he => exact ⟨_, _, _, _, _, hij, hi, hj, .inl rfl, .inr he⟩
  | trans h1 h2 _ i2 =>
    obtain ⟨j, t', o', t, o, h3, h4, h5, h6, h7⟩ := i2
    refine ⟨j, t', o', t, o, h3, h4, h5, .inr ?_, h7⟩
    rcases h6 with rfl | h6
    · exact h1
    · exact .trans h1 h6

/-- Position `n` is `j` or happens before it. -/
def UpTo (c : Sync) (tr : List Op) (n j : Nat) : Prop := n = j ∨ Before c tr n j

theorem UpTo.mono {n j : Nat} (tr' : List Op) (h : UpTo c tr n j) : UpTo c (tr ++ tr') n j := h.imp id (.mono _)

theorem UpTo.step {n j k : Nat} (h : UpTo c tr n j) (h1 : Before c tr j k) : Before c tr n k := by
  rcases h with rfl | h
  · exact h1
  · exact .trans h h1

/-- What the sets contain. -/
structure Clock (c : Sync) (tr : List Op) (h : HB) : Prop where
  n : h.n = tr.length
  acc : ∀ i t l k, Acc.mk i t l k ∈ h.acc ↔ tr[i]? = some (t, .acc l k)
  K : ∀ t, ∀ n ∈ h.K t, ∃ j o, tr[j]? = some (t, o) ∧ UpTo c tr n j
  M : ∀ g, ∀ n ∈ h.M g, ∃ j t, tr[j]? = some (t, .unlock g) ∧ Before c tr n j
  R : ∀ b, ∀ n ∈ h.R b, ∃ j t l, tr[j]? = some (t, .drop b l) ∧ Before c tr n j
  F : c.flags = true → ∀ s, ∀ n ∈ h.F s, ∃ j t, tr[j]? = some (t, .flag s) ∧ Before c tr n j
  KC : ∀ i t0 l k, tr[i]? = some (t0, .acc l k) → ∀ j t o, tr[j]? = some (t, o) → UpTo c tr i j →
    i ∈ h.K t ∧ (∀ g, o = .unlock g → i ∈ h.M g) ∧ (∀ b l, o = .drop b l → i ∈ h.R b) ∧
    (c.flags = true → ∀ s, o = .flag s → i ∈ h.F s)
  races : ∀ i j t t' l l' k k', (Acc.mk i t l k, Acc.mk j t' l' k') ∈ h.races ↔
    i < j ∧ tr[i]? = some (t, .acc l k) ∧ tr[j]? = some (t', .acc l k') ∧ l' = l ∧ t ≠ t' ∧
    (k.writes = true ∨ k'.writes = true) ∧ ¬ Before c tr i j

theorem getElem?_snoc {x y : Op} {i : Nat} : (tr ++ [x])[i]? = some y ↔ tr[i]? = some y ∨ (i = tr.length ∧ y = x) := by
  by_cases h : i < tr.length
  · rw [List.getElem?_append_left h]
    constructor
    · exact .inl
    · rintro (h1 | ⟨rfl, -⟩)
      · exact h1
      · omega
  · rw [List.getElem?_append_right (by omega), List.getElem?_eq_none (by omega : tr.length ≤ i)]
    by_cases e : i = tr.length
    · subst e; simp [eq_comm]
    · rw [List.getElem?_eq_none (by simp; omega)]; simp [e]

theorem get_lt {i : Nat} {x : Op} (h : tr[i]? = some x) : i < tr.length := (List.getElem?_eq_some_iff.1 h).1

theorem Clock.init : Clock c [] HB.init := by
  constructor <;> simp [HB.init]

theorem op_n (t : Tid) (h : HB) (o : Mem) : (h.op c t o).n = h.n + 1 := by
  cases o <;> simp only [HB.op] <;> split <;> rfl

theorem op_F (t : Tid) (h : HB) (o : Mem) : ∀ s, ∀ n ∈ h.F s, n ∈ (h.op c t o).F s := by
  intro s n hn
  cases o <;> simp only [HB.op] <;> (try exact hn)
  · split <;> exact hn
  · split
    · exact upd_mono (fun n hn => List.mem_append_left _ hn) s n hn
    · exact hn

theorem Clock.step {h : HB} (H : Clock c tr h) (t : Tid) (o : Mem) : Clock c (tr ++ [(t, o)]) (h.op c t o) := by
  have G := op_grows (c := c) (t := t) (h := h) o
  have top : (tr ++ [(t, o)])[tr.length]? = some (t, o) := getElem?_snoc.2 (.inr ⟨rfl, rfl⟩)
  have seq : ∀ {n j : Nat} {o' : Mem}, tr[j]? = some (t, o') → UpTo c tr n j → Before c (tr ++ [(t, o)]) n tr.length :=
    fun h1 h2 => (h2.mono _).step (.seq (get_lt h1) (get_app _ h1) top)
  have syn : ∀ {n j : Nat} {t' : Tid} {o' : Mem}, tr[j]? = some (t', o') → Before c tr n j → c.edge o' o = true →
      Before c (tr ++ [(t, o)]) n tr.length :=
    fun h1 h2 h3 => (h2.mono _).trans (.sync (get_lt h1) (get_app _ h1) top h3)
  -- what is known to whom
  have keepK : ∀ t', ∀ n ∈ h.K t', ∃ j o', (tr ++ [(t, o)])[j]? = some (t', o') ∧ UpTo c (tr ++ [(t, o)]) n j := by
    intro t' n hn
    obtain ⟨j, o', h1, h2⟩ := H.K t' n hn
    exact ⟨j, o', get_app _ h1, h2.mono _⟩
  have keepM : ∀ g, ∀ n ∈ h.M g, ∃ j t', (tr ++ [(t, o)])[j]? = some (t', .unlock g) ∧ Before c (tr ++ [(t, o)]) n j := by
    intro t' n hn
    obtain ⟨j, o', h1, h2⟩ := H.M t' n hn
    exact ⟨j, o', get_app _ h1, h2.mono _⟩
  have keepR : ∀ g, ∀ n ∈ h.R g, ∃ j t' l, (tr ++ [(t, o)])[j]? = some (t', .drop g l) ∧ Before c (tr ++ [(t, o)]) n j := by
    intro t' n hn
    obtain ⟨j, o', l, h1, h2⟩ := H.R t' n hn
    exact ⟨j, o', l, get_app _ h1, h2.mono _⟩
  have keepF : c.flags = true → ∀ g, ∀ n ∈ h.F g, ∃ j t', (tr ++ [(t, o)])[j]? = some (t', .flag g) ∧ Before c (tr ++ [(t, o)]) n j := by
    intro hc t' n hn
    obtain ⟨j, o', h1, h2⟩ := H.F hc t' n hn
    exact ⟨j, o', get_app _ h1, h2.mono _⟩
  have newK : ∀ {L : List Nat}, (∀ n ∈ L, UpTo c (tr ++ [(t, o)]) n tr.length) → ∀ t', ∀ n ∈ upd h.K t (h.K t ++ L) t',
      ∃ j o', (tr ++ [(t, o)])[j]? = some (t', o') ∧ UpTo c (tr ++ [(t, o)]) n j := by
    intro L hL t' n hn
    rw [upd_apply] at hn; split at hn
    · rename_i e; subst e
      rcases List.mem_append.1 hn with hn | hn
      · exact keepK _ n hn
      · exact ⟨_, _, top, hL n hn⟩
    · exact keepK t' n hn
  have fromK : ∀ n ∈ h.K t, Before c (tr ++ [(t, o)]) n tr.length := by
    intro n hn
    obtain ⟨j, o', h1, h2⟩ := H.K t n hn
    exact seq h1 h2
  have accE : (∀ l k, o ≠ .acc l k) → (h.op c t o).acc = h.acc ∧ (h.op c t o).races = h.races := by
    intro hne
    cases o with
    | acc l k => exact absurd rfl (hne _ _)
    | count b => unfold HB.op; simp only; split <;> exact ⟨rfl, rfl⟩
    | flag s => unfold HB.op; simp only; split <;> exact ⟨rfl, rfl⟩
    | _ => exact ⟨rfl, rfl⟩
  have cases_acc : (∃ l k, o = .acc l k) ∨ ∀ l k, o ≠ .acc l k := by
    cases o <;> first | exact .inl ⟨_, _, rfl⟩ | (right; intro _ _ h; cases h)
  constructor
  case n => rw [op_n, H.n]; simp
  case acc =>
    intro i t' l k
    rw [getElem?_snoc]
    rcases cases_acc with ⟨l0, k0, rfl⟩ | hne
    · show _ ∈ _ :: _ ↔ _
      rw [List.mem_cons, H.acc, H.n]
      simp only [Acc.mk.injEq, Prod.mk.injEq, Mem.acc.injEq]
      exact or_comm
    · rw [(accE hne).1, H.acc]
      constructor
      · exact .inl
      · rintro (h1 | ⟨-, h1⟩)
        · exact h1
        · exact absurd (Prod.mk.inj h1).2.symm (hne _ _)
  case K =>
    cases o with
    | acc l k =>
      intro t' n hn
      simp only [HB.op, upd_apply] at hn
      split at hn
      · rename_i e; subst e
        rcases List.mem_cons.1 hn with rfl | hn
        · exact ⟨_, _, top, .inl H.n⟩
        · exact keepK _ n hn
      · exact keepK _ n hn
    | lock g =>
      refine newK fun n hn => .inr ?_
      obtain ⟨j, t', h1, h2⟩ := H.M g n hn
      exact syn h1 h2 (by simp [Sync.edge])
    | unlock g => exact keepK
    | drop b last =>
      cases last
      · exact keepK
      · refine newK fun n hn => .inr ?_
        obtain ⟨j, t', l, h1, h2⟩ := H.R b n hn
        exact syn h1 h2 (by simp [Sync.edge])
    | count b =>
      unfold HB.op; simp only; split
      · rename_i hc
        refine newK fun n hn => .inr ?_
        obtain ⟨j, t', l, h1, h2⟩ := H.R b n hn
        exact syn h1 h2 (by simp [Sync.edge, hc])
      · exact keepK
    | flag s =>
      unfold HB.op; simp only; split
      · rename_i hc
        refine newK fun n hn => .inr ?_
        obtain ⟨j, t', h1, h2⟩ := H.F hc s n hn
        exact syn h1 h2 (by simp [Sync.edge, hc])
      · exact keepK
  case M =>
    cases o with
    | unlock g =>
      intro g' n hn
      simp only [HB.op, upd_apply] at hn
      split at hn
      · rename_i e; subst e
        rcases List.mem_append.1 hn with hn | hn
        · exact keepM _ n hn
        · exact ⟨_, _, top, fromK n hn⟩
      · exact keepM _ n hn
    | count b => unfold HB.op; simp only; split <;> exact keepM
    | flag b => unfold HB.op; simp only; split <;> exact keepM
    | _ => exact keepM
  case R =>
    cases o with
    | drop b last =>
      intro g' n hn
      simp only [HB.op, upd_apply] at hn
      split at hn
      · rename_i e; subst e
        rcases List.mem_append.1 hn with hn | hn
        · exact keepR _ n hn
        · exact ⟨_, _, _, top, fromK n hn⟩
      · exact keepR _ n hn
    | count b => unfold HB.op; simp only; split <;> exact keepR
    | flag b => unfold HB.op; simp only; split <;> exact keepR
    | _ => exact keepR
  case F =>
    intro hc
    cases o with
    | flag s =>
      intro g' n hn
      simp only [HB.op, hc, if_true, upd_apply] at hn
      split at hn
      · rename_i e; subst e
        rcases List.mem_append.1 hn with hn | hn
        · exact keepF hc _ n hn
        · exact ⟨_, _, top, fromK n hn⟩
      · exact keepF hc _ n hn
    | count b => unfold HB.op; simp only; split <;> exact keepF hc
    | _ => exact keepF hc
  case KC =>
    intro i t0 l k hi j t1 o1 hj hu
    have ilt : i < tr.length ∨ i = tr.length := by
      rcases getElem?_snoc.1 hi with h1 | h1
      · exact .inl (get_lt h1)
      · exact .inr h1.1
    -- from the knowledge of the thread, or by synchronisation, to the sets afterwards
    have fin : i ∈ h.K t → i ∈ (h.op c t o).K t ∧ (∀ g, o = .unlock g → i ∈ (h.op c t o).M g) ∧
        (∀ b l, o = .drop b l → i ∈ (h.op c t o).R b) ∧ (c.flags = true → ∀ s, o = .flag s → i ∈ (h.op c t o).F s) := by
      intro hk
      refine ⟨G.K _ _ hk, ?_, ?_, ?_⟩
      · rintro g rfl; simp [HB.op, upd_same, hk]
      · rintro b l rfl; simp [HB.op, upd_same, hk]
      · rintro hc s rfl; simp [HB.op, hc, upd_same, hk]
    rcases getElem?_snoc.1 hj with h1 | ⟨h1, h2⟩
    · have jl := get_lt h1
      have hu' : UpTo c tr i j := hu.imp id (fun h => h.restrict jl)
      have il : i < tr.length := by
        rcases hu' with rfl | h2
        · exact jl
        · have := h2.lt; omega
      have hi' : tr[i]? = some (t0, .acc l k) := by rwa [List.getElem?_append_left il] at hi
      obtain ⟨h3, h4, h5, h6⟩ := H.KC i t0 l k hi' j t1 o1 h1 hu'
      exact ⟨G.K _ _ h3, fun g e => G.M _ _ (h4 g e), fun b l e => G.R _ _ (h5 b l e), fun hc s e => op_F _ _ _ _ _ (h6 hc s e)⟩
    · obtain ⟨rfl, rfl⟩ := Prod.mk.inj h2
      subst h1
      rcases hu with rfl | hu
      · rw [top] at hi
        obtain ⟨rfl, rfl⟩ := Prod.mk.inj (Option.some.inj hi)
        refine ⟨?_, by simp, by simp, by simp⟩
        simp [HB.op, upd_same, H.n]
      · obtain ⟨j', t', o', t2, o2, h3, h4, h5, h6, h7⟩ := hu.last
        rw [top] at h5
        obtain ⟨rfl, rfl⟩ := Prod.mk.inj (Option.some.inj h5)
        have h4 : tr[j']? = some (t', o') := by rwa [List.getElem?_append_left h3] at h4
        have h6 : UpTo c tr i j' := h6.imp id (fun h => h.restrict h3)
        have il : i < tr.length := by
          rcases h6 with rfl | h6
          · exact h3
          · have := h6.lt; omega
        have hi' : tr[i]? = some (t0, .acc l k) := by rwa [List.getElem?_append_left il] at hi
        obtain ⟨k1, k2, k3, k4⟩ := H.KC i t0 l k hi' j' t' o' h4 h6
        rcases h7 with rfl | h7
        · exact fin k1
        · unfold Sync.edge at h7
          split at h7
          · have e := eq_of_beq h7; subst e
            refine ⟨?_, by simp, by simp, by simp⟩
            simp [HB.op, upd_same, k2 _ rfl]
          · simp only [Bool.and_eq_true] at h7
            have e := eq_of_beq h7.1; subst e
            obtain ⟨-, e⟩ := h7; subst e
            have := k3 _ _ rfl
            refine ⟨by simp [HB.op, upd_same, this], by simp, ?_, by simp⟩
            rintro b l e; injection e with e1 e2; subst e1; exact G.R _ _ this
          · simp only [Bool.and_eq_true] at h7
            have e := eq_of_beq h7.1; subst e
            have := k3 _ _ rfl
            exact ⟨by simp [HB.op, h7.2, upd_same, this], by simp, by simp, by simp⟩
          · simp only [Bool.and_eq_true] at h7
            have e := eq_of_beq h7.1; subst e
            have := k4 h7.2 _ rfl
            refine ⟨by simp [HB.op, h7.2, upd_same, this], by simp, by simp, ?_⟩
            rintro hc s e; injection e with e1; subst e1; exact op_F _ _ _ _ _ this
          · cases h7
  case races =>
    intro i j t1 t2 l l' k k'
    have old : (Acc.mk i t1 l k, Acc.mk j t2 l' k') ∈ h.races ↔ j < tr.length ∧ (i < j ∧ (tr ++ [(t, o)])[i]? = some (t1, .acc l k) ∧
        (tr ++ [(t, o)])[j]? = some (t2, .acc l k') ∧ l' = l ∧ t1 ≠ t2 ∧ (k.writes = true ∨ k'.writes = true) ∧
        ¬ Before c (tr ++ [(t, o)]) i j) := by
      rw [H.races]
      constructor
      · rintro ⟨h1, h2, h3, h4⟩
        have jl := get_lt h3
        exact ⟨jl, h1, get_app _ h2, get_app _ h3, h4.1, h4.2.1, h4.2.2.1, fun hb => h4.2.2.2 (hb.restrict jl)⟩
      · rintro ⟨h0, h1, h2, h3, h4⟩
        rw [List.getElem?_append_left (by omega)] at h2 h3
        exact ⟨h1, h2, h3, h4.1, h4.2.1, h4.2.2.1, fun hb => h4.2.2.2 (hb.mono _)⟩
    rcases cases_acc with ⟨l0, k0, rfl⟩ | hne
    · show _ ∈ _ ++ h.races ↔ _
      rw [List.mem_append, old]
      constructor
      · rintro (h1 | h1)
        · obtain ⟨x, hx, e1⟩ := List.mem_map.1 h1
          obtain ⟨rfl, e2⟩ := Prod.mk.inj e1
          simp only [Acc.mk.injEq] at e2
          obtain ⟨rfl, rfl, rfl, rfl⟩ := e2
          simp only [List.mem_filter, conflict, Bool.and_eq_true, decide_eq_true_eq, Bool.or_eq_true, Bool.not_eq_true',
            List.contains_eq_mem, decide_eq_false_iff_not] at hx
          obtain ⟨h2, ⟨⟨h3, h4⟩, h5⟩, h6⟩ := hx
          have h2 := (H.acc _ _ _ _).1 h2
          refine ⟨by rw [H.n]; exact get_lt h2, get_app _ h2, by rw [H.n, h3]; exact top, h3.symm, h4, h5, fun hb => ?_⟩
          rw [H.n] at hb
          obtain ⟨j', t', o', t2, o2, g3, g4, g5, g6, g7⟩ := hb.last
          rw [top] at g5
          obtain ⟨rfl, rfl⟩ := Prod.mk.inj (Option.some.inj g5)
          have g8 : tr[j']? = some (t', o') := by rwa [List.getElem?_append_left g3] at g4
          have g9 : UpTo c tr i j' := g6.imp id (fun h => h.restrict g3)
          rcases g7 with rfl | g7
          · exact h6 (H.KC i t1 l k h2 j' t' o' g8 g9).1
          · unfold Sync.edge at g7; split at g7 <;> simp_all
        · exact h1.2
      · rintro ⟨h1, h2, h3, rfl, h5, h6, h7⟩
        rcases getElem?_snoc.1 h3 with h8 | ⟨rfl, h8⟩
        · exact .inr ⟨get_lt h8, h1, h2, h3, rfl, h5, h6, h7⟩
        · left
          obtain ⟨rfl, e⟩ := Prod.mk.inj h8
          injection e with e1 e2; subst e1 e2
          rw [List.getElem?_append_left h1] at h2
          refine List.mem_map.2 ⟨⟨i, t1, l', k⟩, ?_, by rw [H.n]⟩
          simp only [List.mem_filter, conflict, Bool.and_eq_true, decide_eq_true_eq, Bool.or_eq_true, Bool.not_eq_true',
            List.contains_eq_mem, decide_eq_false_iff_not]
          exact ⟨(H.acc _ _ _ _).2 h2, ⟨⟨by trivial, h5⟩, h6⟩, fun hk => h7 (fromK i hk)⟩
    · rw [(accE hne).2, old]
      constructor
      · exact fun h => h.2
      · intro h1
        refine ⟨?_, h1⟩
        rcases getElem?_snoc.1 h1.2.2.1 with h2 | ⟨-, h2⟩
        · exact get_lt h2
        · exact absurd (Prod.mk.inj h2).2.symm (hne _ _)

theorem Clock.of (tr : List Op) : Clock c tr (HB.of c tr) := by
  have : ∀ (tr' tr : List Op) (h : HB), Clock c tr h → Clock c (tr ++ tr') (tr'.foldl (fun h x => h.op c x.1 x.2) h) := by
    intro tr'
    induction tr' with
    | nil => intro tr h H; simpa using H
    | cons x tr' ih =>
      intro tr h H
      have := ih (tr ++ [x]) _ (H.step x.1 x.2)
      simpa using this
  exact this tr [] _ .init

theorem race_iff {i j : Nat} {l : Loc} {k k' : Site} :
    Race c tr i j l k k' ↔ ∃ t t', (Acc.mk i t l k, Acc.mk j t' l k') ∈ (HB.of c tr).races := by
  constructor
  · rintro ⟨h1, ⟨t, t', h2, h3, h4⟩, h5, h6⟩
    exact ⟨t, t', ((Clock.of tr).races ..).2 ⟨h1, h3, h4, rfl, h2, h5, h6⟩⟩
  · rintro ⟨t, t', h⟩
    obtain ⟨h1, h2, h3, -, h4, h5, h6⟩ := ((Clock.of tr).races ..).1 h
    exact ⟨h1, ⟨t, t', h4, h2, h3⟩, h5, h6⟩

end Verif
