import Verif.Flow2
import Verif.Props.Scheduling
import Verif.Props.States

/-!
# Stores (C35, C36)
-/

namespace Verif
open World

/-! ## what is claimed -/

/-- the component continues: it's scheduled for now -/
def Goes (w w' : World) (c : CId) : Prop := w'.status c = .scheduled ∧ ∃ e ∈ w'.events, e.c = c ∧ e.t = w.now

/-- the component asked for an item like this from this store: it's waiting for it, or it's the call itself -/
def Asks (w : World) (o : Op) (c : CId) (s : StId) (i : CId) : Prop :=
  (c ∈ w.inQ (.fromReq s) ∧ (w.comps c).fromFilter i = true) ∨ match o with
  | .fromStore d ss f .. => d = c ∧ s ∈ ss ∧ f i = true
  | _ => False

/-- the call itself puts the item into the store -/
def Puts (o : Op) (i : CId) (s : StId) : Prop := match o with
  | .toStore _ ss j .. => j = i ∧ s ∈ ss
  | .storeEnter j t _ => j = i ∧ t = s
  | _ => False

def Move.isDrop : Move → Bool
  | .drop .. => true
  | _ => false

/-- The call has moved items into and out of the stores as listed. `.put i s none`: by the call itself; `.put i s (some p)`: on behalf of the
waiting component `p`; `.take i s c`: the item is handed to `c`; `.drop i s`: the call is `i.leave(s)`. -/
structure Turnover (o : Op) (l : List Move) (w w' : World) : Prop where
  /-- step by step, from the contents before to the contents after -/
  ledger : Ledger (caps w') (conts w) l (conts w')
  /-- who is handed an item has asked for it, has it, is not waiting anymore, and continues -/
  taken : ∀ i s c, .take i s c ∈ l → Asks w o c s i ∧ (w'.comps c).fromItem = some i ∧ (∀ x, c ∉ w'.inQ (.fromReq x)) ∧ Goes w w' c
  /-- one item only -/
  takers : (l.filterMap Move.taker).Nodup
  own : ∀ i s, .put i s none ∈ l → Puts o i s
  /-- who was waiting to put this item is not waiting anymore, and continues -/
  stored : ∀ i s p, .put i s (some p) ∈ l →
    (p ∈ w.inQ (.toReq s) ∧ (w.comps p).toItem = some i) ∧ (∀ x, p ∉ w'.inQ (.toReq x)) ∧ Goes w w' p
  givers : (l.filterMap Move.giver).Nodup
  drops : ∀ i s, .drop i s ∈ l → o = .storeLeave i s
  once : (l.filter Move.isDrop).length ≤ 1

/-- the user changes what the filters (which are functions of the user) accept -/
def refilter (f : CId → CId → Bool) (w : World) : World := { w with comps := fun c => { w.comps c with fromFilter := f c } }

/-- a program without `rescan` -/
inductive Life : World → Prop
  | start {w} : Fresh w → Life w
  | call {w w'} (fuel : Nat) (o : Op) : Life w → Calm fuel w o → (∀ s, o ≠ .rescan s) → exec fuel o w = .ok w' → Life w'
  | filters {w} (f) : Life w → Life (refilter f w)

/-- the same with all that happens to the stores -/
inductive Story : List Move → World → Prop
  | start {w} : Fresh w → Story [] w
  | call {w w' l} (fuel : Nat) (o : Op) (m : List Move) : Story l w → Calm fuel w o → (∀ s, o ≠ .rescan s) → exec fuel o w = .ok w' →
      Turnover o m w w' → Story (l ++ m) w'
  | filters {w l} (f) : Story l w → Story l (refilter f w)

/-- how many times the item has been put into the store, handed out, or removed -/
def putCount (i : CId) (s : StId) (l : List Move) : Nat := l.countP fun m => match m with
  | .put j t _ => decide (j = i ∧ t = s)
  | _ => false
def takeCount (i : CId) (s : StId) (l : List Move) : Nat := l.countP fun m => match m with
  | .take j t _ => decide (j = i ∧ t = s)
  | _ => false
def dropCount (i : CId) (s : StId) (l : List Move) : Nat := l.countP fun m => match m with
  | .drop j t => decide (j = i ∧ t = s)
  | _ => false

/-! ## the search -/

theorem searchStore_nokey (f : CId → Bool) : ∀ (l : List CId) (b : Option CId), searchStore f none l b = (l.find? f).or b
  | [], b => by simp [searchStore]
  | c :: t, b => by
    unfold searchStore
    by_cases hc : f c = true
    · simp [hc]
    · simp only [hc, if_false, List.find?_cons, Bool.false_eq_true]
      exact searchStore_nokey f t b

theorem searchStores_nokey (w : World) (f : CId → Bool) : ∀ (ss : List StId) (s0 : StId) {i s}, searchStores w f none ss none s0 = (some i, s) →
    ∃ s1 s2 a b, ss = s1 ++ s :: s2 ∧ (∀ t ∈ s1, ∀ x ∈ conts w t, f x = false) ∧ conts w s = a ++ i :: b ∧ f i = true ∧ ∀ x ∈ a, f x = false
  | [], s0, i, s, h => by simp [searchStores] at h
  | t :: ss, s0, i, s, h => by
    unfold searchStores at h
    simp only [searchStore_nokey, Option.or_none, Option.isNone_none, true_and] at h
    split at h
    · simp only [Prod.mk.injEq] at h
      obtain ⟨h1, rfl⟩ := h
      obtain ⟨hi, a, b, hab, ha⟩ := List.find?_eq_some_iff_append.1 h1
      exact ⟨[], ss, a, b, rfl, by simp, hab, hi, fun x hx => by simpa using ha x hx⟩
    · rename_i hn
      have hn' : (w.inQ (.store t)).find? f = none := by
        cases h9 : (w.inQ (.store t)).find? f with
        | none => rfl
        | some y => rw [h9] at hn; simp at hn
      rw [hn'] at h
      obtain ⟨s1, s2, a, b, h1, h2, h3⟩ := searchStores_nokey w f ss t h
      refine ⟨t :: s1, s2, a, b, by rw [h1]; rfl, ?_, h3⟩
      intro x hx y hy
      rcases List.mem_cons.1 hx with rfl | hx
      · simpa using List.find?_eq_none.1 hn' y hy
      · exact h2 x hx y hy

/-- the best of a list: the first of those with the smallest key -/
structure Best (f : CId → Bool) (k : CId → Rat) (l : List CId) (i : CId) : Prop where
  split : ∃ a b, l = a ++ i :: b ∧ f i = true ∧ (∀ x ∈ a, f x = true → k i < k x) ∧ ∀ x ∈ b, f x = true → k i ≤ k x

/-- the best one, or none if there's none -/
def Found (f : CId → Bool) (k : CId → Rat) (l : List CId) : Option CId → Prop
  | none => ∀ x ∈ l, f x = false
  | some i => Best f k l i

theorem searchStore_key (f : CId → Bool) (k : CId → Rat) : ∀ (l l0 : List CId) (b : Option CId),
    Found f k l0 b → Found f k (l0 ++ l) (searchStore f (some k) l b)
  | [], l0, b, h => by simp only [searchStore, List.append_nil]; exact h
  | c :: t, l0, b, h => by
    have e : l0 ++ c :: t = (l0 ++ [c]) ++ t := by simp
    unfold searchStore
    rw [e]
    by_cases hc : f c = true
    · rw [if_pos hc]
      cases b with
      | none =>
        refine searchStore_key f k t _ (some c) ⟨l0, [], rfl, hc, ?_, by simp⟩
        intro x hx hf; rw [h x hx] at hf; cases hf
      | some y =>
        obtain ⟨a1, b1, h1, h2, h3, h4⟩ := (show Best f k l0 y from h).split
        simp only
        split
        · rename_i hk
          refine searchStore_key f k t _ (some c) ⟨l0, [], rfl, hc, ?_, by simp⟩
          intro x hx hf
          rw [h1] at hx
          rcases List.mem_append.1 hx with hx | hx
          · exact hk.trans (h3 x hx hf)
          · rcases List.mem_cons.1 hx with rfl | hx
            · exact hk
            · exact hk.trans_le (h4 x hx hf)
        · rename_i hk
          refine searchStore_key f k t _ (some y) ⟨a1, b1 ++ [c], by rw [h1]; simp, h2, h3, ?_⟩
          intro x hx hf
          rcases List.mem_append.1 hx with hx | hx
          · exact h4 x hx hf
          · simp only [List.mem_singleton] at hx; subst hx; exact not_lt.1 hk
    · rw [if_neg hc]
      refine searchStore_key f k t _ b ?_
      cases b with
      | none =>
        intro x hx
        rcases List.mem_append.1 hx with hx | hx
        · exact h x hx
        · simp only [List.mem_singleton] at hx; subst hx; simpa using hc
      | some y =>
        obtain ⟨a1, b1, h1, h2, h3, h4⟩ := (show Best f k l0 y from h).split
        refine ⟨a1, b1 ++ [c], by rw [h1]; simp, h2, h3, ?_⟩
        intro x hx hf
        rcases List.mem_append.1 hx with hx | hx
        · exact h4 x hx hf
        · simp only [List.mem_singleton] at hx; subst hx; exact absurd hf hc

/-- with a key: the best over all stores, and the last of the stores -/
theorem searchStores_key (w : World) (f : CId → Bool) (k : CId → Rat) : ∀ (ss : List StId) (l0 : List CId) (b : Option CId) (s0 : StId),
    Found f k l0 b → Found f k (l0 ++ ss.flatMap (conts w)) (searchStores w f (some k) ss b s0).1 ∧
      (searchStores w f (some k) ss b s0).2 = ss.getLastD s0
  | [], l0, b, s0, h => by simp only [searchStores, List.flatMap_nil, List.append_nil]; exact ⟨h, rfl⟩
  | t :: ss, l0, b, s0, h => by
    unfold searchStores
    simp only [Option.isNone_some, Bool.false_eq_true, false_and, if_false]
    have := searchStores_key w f k ss (l0 ++ conts w t) _ t (searchStore_key f k (conts w t) l0 b h)
    simp only [List.append_assoc] at this
    rw [List.flatMap_cons]
    exact ⟨this.1, this.2.trans (by cases ss <;> rfl)⟩

theorem searchStores_found (w : World) (f k ss s0) {i s} (hne : ss ≠ []) (h : searchStores w f k ss none s0 = (some i, s)) : s ∈ ss ∧ f i = true := by
  cases k with
  | none =>
    obtain ⟨s1, s2, a, b, h1, _, _, h2, _⟩ := searchStores_nokey w f ss s0 h
    exact ⟨by rw [h1]; simp, h2⟩
  | some k =>
    have := searchStores_key w f k ss [] none s0 (by simp [Found])
    rw [h] at this
    obtain ⟨h1, h3⟩ := this
    obtain ⟨_, _, _, h2, _⟩ := (show Best f k _ i from h1).split
    refine ⟨?_, h2⟩
    simp only at h3
    rw [h3, List.getLastD_eq_getLast?, List.getLast?_eq_some_getLast hne]
    exact List.getLast_mem hne

theorem searchStores_none (w : World) (f k) (ss : List StId) (s0) {s} (h : searchStores w f k ss none s0 = (none, s)) : ∀ t ∈ ss, ∀ x ∈ conts w t, f x = false := by
  cases k with
  | none =>
    induction ss generalizing s0 with
    | nil => simp
    | cons t ss ih =>
      unfold searchStores at h
      simp only [searchStore_nokey, Option.or_none, Option.isNone_none, true_and] at h
      split at h
      · rename_i hn
        simp only [Prod.mk.injEq] at h
        rw [h.1] at hn; cases hn
      · rename_i hn
        have hn' : (w.inQ (.store t)).find? f = none := by
          cases h9 : (w.inQ (.store t)).find? f with
          | none => rfl
          | some y => rw [h9] at hn; simp at hn
        rw [hn'] at h
        intro x hx y hy
        rcases List.mem_cons.1 hx with rfl | hx
        · simpa using List.find?_eq_none.1 hn' y hy
        · exact ih t h x hx y hy
  | some k =>
    have := (searchStores_key w f k ss [] none s0 (by simp [Found])).1
    rw [h] at this
    intro t ht x hx
    exact this x (by simp only [List.nil_append, List.mem_flatMap]; exact ⟨t, ht, hx⟩)

/-! ## the turnover of a call -/

theorem goes_of {w w' : World} (hg : Good ∅ w') {c : CId} (hs : w'.status c = .scheduled) (ht : (w'.comps c).schedTime = (w.now : ETime)) : Goes w w' c := by
  refine ⟨hs, ?_⟩
  have hon : (w'.comps c).onList = true := hg.timed c (by simp) (by simp [Status.timed, hs]) (by rw [ht]; exact WithTop.coe_ne_top)
  obtain ⟨e, he, hc⟩ := (hg.inv.on c).1 hon
  refine ⟨e, he, hc, ?_⟩
  have h1 : w'.status e.c ≠ .data := by rw [hc, hs]; simp
  have this : (w'.comps e.c).schedTime = (e.t : ETime) := hg.inv.sched e he h1
  rw [hc, ht] at this
  exact (WithTop.coe_inj.1 this).symm

/-- what happens in the middle of a call, seen from the outside -/
structure Amid (w a b w' : World) : Prop where
  good : Good ∅ w'
  before : ∀ x d, d ∈ a.inQ (.fromReq x) ∨ d ∈ a.inQ (.toReq x) → a.comps d = w.comps d ∧ w'.comps d = b.comps d
  subF : ∀ x d, d ∈ a.inQ (.fromReq x) → d ∈ w.inQ (.fromReq x)
  subT : ∀ x d, d ∈ a.inQ (.toReq x) → d ∈ w.inQ (.toReq x)
  after : ∀ x, w'.inQ (.fromReq x) = b.inQ (.fromReq x) ∧ w'.inQ (.toReq x) = b.inQ (.toReq x)
  now : a.now = w.now

theorem Amid.taken {w a b w' : World} (h : Amid w a b w') {P l} (f : Flow P l a b) (o) : ∀ i s c, .take i s c ∈ l →
    Asks w o c s i ∧ (w'.comps c).fromItem = some i ∧ (∀ x, c ∉ w'.inQ (.fromReq x)) ∧ Goes w w' c := by
  intro i s c hm
  have g := f.taken i s c hm
  obtain ⟨h1, h2⟩ := h.before s c (.inl g.waits)
  refine ⟨.inl ⟨h.subF _ _ g.waits, by rw [← h1]; exact g.accepts⟩, by rw [h2]; exact g.item, fun x => by rw [(h.after x).1]; exact g.gone x, ?_⟩
  exact goes_of h.good (by rw [World.status, h2]; exact g.status) (by rw [h2, g.time, h.now])

theorem Amid.stored {w a b w' : World} (h : Amid w a b w') {P l} (f : Flow P l a b) (hP : ∀ i s p, ¬ P i s (some p)) : ∀ i s p, .put i s (some p) ∈ l →
    (p ∈ w.inQ (.toReq s) ∧ (w.comps p).toItem = some i) ∧ (∀ x, p ∉ w'.inQ (.toReq x)) ∧ Goes w w' p := by
  intro i s p hm
  rcases f.puts i s (some p) hm with ⟨hp, _⟩ | ⟨c, hc, g⟩
  · exact (hP _ _ _ hp).elim
  cases hc
  obtain ⟨h1, h2⟩ := h.before s p (.inr g.waits)
  refine ⟨⟨h.subT _ _ g.waits, by rw [← h1]; exact g.item⟩, fun x => by rw [(h.after x).2]; exact g.gone x, ?_⟩
  exact goes_of h.good (by rw [World.status, h2]; exact g.status) (by rw [h2, g.time, h.now])

theorem nodrops {l : List Move} (h : ∀ i s, .drop i s ∉ l) : l.filter Move.isDrop = [] := by
  rw [List.filter_eq_nil_iff]
  intro m hm
  cases m with
  | drop i s => exact (h i s hm).elim
  | _ => simp [Move.isDrop]

/-- the moves of a call -/
theorem Amid.turnover {w a b w' : World} (h : Amid w a b w') {P l} (f : Flow P l a b) {o} (hP : ∀ i s p, ¬ P i s (some p))
    (hO : ∀ i s, P i s none → Puts o i s) (h1 : conts a = conts w) (h2 : conts w' = conts b) (h3 : caps w' = caps b) : Turnover o l w w' where
  ledger := by rw [h3, f.caps, ← h1, h2]; exact f.led
  taken := h.taken f o
  takers := f.takers
  own i s hm := by
    rcases f.puts i s none hm with ⟨hp, _⟩ | ⟨c, hc, _⟩
    · exact hO i s hp
    · cases hc
  stored := h.stored f hP
  givers := f.givers
  drops i s hm := (f.nodrop i s hm).elim
  once := by rw [nodrops f.nodrop]; simp

theorem Turnover.none {o} {w w' : World} (h1 : conts w' = conts w) : Turnover o [] w w' :=
  ⟨by rw [h1]; exact .nil _, by simp, by simp, by simp, by simp, by simp, by simp, by simp⟩

theorem Amid.same {w b : World} (hg : Good ∅ b) : Amid w w b b := ⟨hg, fun _ _ _ => ⟨rfl, rfl⟩, fun _ _ h => h, fun _ _ h => h, fun _ => ⟨rfl, rfl⟩, rfl⟩

/-- what `from_store` does if the item is there -/
theorem fromStore_turnover {w w' : World} {fuel c ss f k rp fa fd p u cp} (hg : Good ∅ w) (hc : Calm fuel w (.fromStore c ss f k rp fa fd p u cp))
    (h : exec fuel (.fromStore c ss f k rp fa fd p u cp) w = .ok w') {w2 : World} (b : Begun c w w2) {item s w3}
    (hs : s ∈ ss) (hf : f item = true) (h3 : storeLeave fuel item s w2 = .ok w3)
    (h4 : wake c (some item) (w3.modC c (fun x => { x with fromItem := some item })) = .ok w') :
    ∃ l, Turnover (.fromStore c ss f k rp fa fd p u cp) (.take item s c :: l) w w' ∧ Refill w2 s ((w.inQ (.store s)).length - 1) l := by
  have hg' := exec_good hg hc h
  obtain ⟨a, l, k1, fl, hl⟩ := storeLeave_flow b.good h3
  have hlen : (w2.queues (.store s)).len = (w.inQ (.store s)).length := by
    rw [← show w2.inQ (.store s) = w.inQ (.store s) from congrFun b.conts s]; simp [World.inQ, Queue.len]
  rw [hlen] at hl
  refine ⟨l, ?_, hl⟩
  replace hl := hl.one
  have g3 : Good {c} w3 := ((trR_store _ fuel).2 _ _ _ b.good w3 h3).good
  obtain ⟨w4, h4', kk⟩ := wake_woken (w := w3.modC c (fun x => { x with fromItem := some item })) (inv_of_ev (ev_modC (fun _ => rfl)) g3.inv) c (some item)
  rw [h4'] at h4; cases h4
  have hFr : ∀ x, a.inQ (.fromReq x) = w2.inQ (.fromReq x) := fun x => by rw [World.inQ, k1.other (by simp)]; rfl
  have hTo : ∀ x, a.inQ (.toReq x) = w2.inQ (.toReq x) := fun x => by rw [World.inQ, k1.other (by simp)]; rfl
  have hnF : ∀ x, c ∉ a.inQ (.fromReq x) := fun x => by rw [hFr]; exact b.notin rfl
  have hnT : ∀ x, c ∉ a.inQ (.toReq x) := fun x => by rw [hTo]; exact b.notin rfl
  have hq : ∀ q, w'.inQ q = w3.inQ q := fun q => by rw [World.inQ, kk.queues]; rfl
  have hoth : ∀ d, d ≠ c → w'.comps d = w3.comps d := fun d hd => by rw [kk.other d hd, modC_other hd]
  have W : Amid w a w3 w' := by
    refine ⟨hg', fun x d hd => ?_, fun x d hd => ?_, fun x d hd => ?_, fun x => ⟨hq _, hq _⟩, k1.now.trans b.now⟩
    · have hne : d ≠ c := by rintro rfl; rcases hd with hd | hd; exacts [hnF _ hd, hnT _ hd]
      exact ⟨by rw [k1.comps, b.other d hne], hoth d hne⟩
    · rw [hFr] at hd; exact (b.sub _).subset hd
    · rw [hTo] at hd; exact (b.sub _).subset hd
  have hcon : conts w' = conts w3 := by funext x; exact hq _
  have hcap : caps w' = caps w3 := by funext x; simp only [caps, kk.queues]; rfl
  have hcapa : caps a = caps w2 := by funext x; exact k1.cap _
  have hnow : w3.now = w.now := (fl.now.trans k1.now).trans b.now
  refine ⟨?_, ?_, ?_, ?_, ?_, ?_, ?_, ?_⟩
  · have L0 : Ledger (caps w') (conts a) l (conts w') := by rw [hcap, fl.caps, hcon]; exact fl.led
    have L := (k1.take (caps w') c).append L0
    rw [b.conts] at L; exact L
  · intro i t d hm
    rcases List.mem_cons.1 hm with hm | hm
    · cases hm
      refine ⟨.inr ⟨rfl, hs, hf⟩, by rw [kk.self, modC_self], fun x hx => ?_, ?_⟩
      · rw [hq] at hx; exact hnF x (fl.subF x c hx)
      · refine goes_of hg' (by rw [World.status, kk.self]) (by rw [kk.self]; exact congrArg _ hnow)
    · exact W.taken fl _ i t d hm
  · rcases hl with rfl | ⟨y, q, rfl⟩
    · exact List.nodup_singleton _
    · exact List.nodup_singleton _
  · intro i t hm
    rcases List.mem_cons.1 hm with hm | hm
    · cases hm
    · rcases fl.puts i t none hm with ⟨hp, _⟩ | ⟨d, hd, _⟩
      · exact hp.elim
      · cases hd
  · intro i t p hm
    rcases List.mem_cons.1 hm with hm | hm
    · cases hm
    · exact W.stored fl (by intro _ _ _ h; exact h) i t p hm
  · exact fl.givers
  · intro i t hm
    rcases List.mem_cons.1 hm with hm | hm
    · cases hm
    · exact (fl.nodrop i t hm).elim
  · rw [List.filter_cons_of_neg (by simp [Move.isDrop]), nodrops fl.nodrop]; simp

theorem toStore_turnover {w w' : World} {fuel c ss i rp sp fa fd p u cp} (hg : Good ∅ w) (hc : Calm fuel w (.toStore c ss i rp sp fa fd p u cp))
    (h : exec fuel (.toStore c ss i rp sp fa fd p u cp) w = .ok w') {w2 : World} (b : Begun c w w2) {s w3}
    (hs : s ∈ ss) (h3 : storeEnter fuel i s (some sp) w2 = .ok w3)
    (h4 : wake c none (w3.modC c (fun x => { x with toItem := none, toStores := [] })) = .ok w') :
    ∃ l, Turnover (.toStore c ss i rp sp fa fd p u cp) (.put i s none :: l) w w' ∧
      ((wanted w2 s i = none ∧ l = []) ∨ ∃ m l', wanted w2 s i = some m ∧ l = .take i s m.c :: l' ∧ Refill w2 s (w.inQ (.store s)).length l') ∧
      Goes w w' c := by
  have hg' := exec_good hg hc h
  obtain ⟨l, fl, hl⟩ := storeEnter_flow b.good h3 none (by simp)
  have hlen : (w2.queues (.store s)).len = (w.inQ (.store s)).length := by
    rw [← show w2.inQ (.store s) = w.inQ (.store s) from congrFun b.conts s]; simp [World.inQ, Queue.len]
  rw [hlen] at hl
  refine ⟨l, ?_, hl, ?_⟩
  all_goals
    have g3 : Good {c} w3 := ((trR_store _ fuel).1 _ _ _ _ b.good w3 h3).good
    obtain ⟨w4, h4', kk⟩ := wake_woken (w := w3.modC c (fun x => { x with toItem := none, toStores := [] })) (inv_of_ev (ev_modC (fun _ => rfl)) g3.inv) c none
    rw [h4'] at h4; cases h4
  · have hnF : ∀ x, c ∉ w2.inQ (.fromReq x) := fun x => b.notin rfl
    have hnT : ∀ x, c ∉ w2.inQ (.toReq x) := fun x => b.notin rfl
    have hq : ∀ q, w'.inQ q = w3.inQ q := fun q => by rw [World.inQ, kk.queues]; rfl
    have hoth : ∀ d, d ≠ c → w'.comps d = w3.comps d := fun d hd => by rw [kk.other d hd, modC_other hd]
    have W : Amid w w2 w3 w' := by
      refine ⟨hg', fun x d hd => ?_, fun x d hd => ?_, fun x d hd => ?_, fun x => ⟨hq _, hq _⟩, b.now⟩
      · have hne : d ≠ c := by rintro rfl; rcases hd with hd | hd; exacts [hnF _ hd, hnT _ hd]
        exact ⟨b.other d hne, hoth d hne⟩
      · exact (b.sub _).subset hd
      · exact (b.sub _).subset hd
    refine W.turnover fl ?_ ?_ b.conts ?_ ?_
    · rintro j t p ⟨_, _, h⟩; cases h
    · rintro j t ⟨rfl, rfl, _⟩; exact ⟨rfl, hs⟩
    · funext x; exact hq _
    · funext x; simp only [caps, kk.queues]; rfl
  · refine goes_of hg' (by rw [World.status, kk.self]) (by rw [kk.self]; exact congrArg _ (fl.now.trans b.now))

/-- `enter` of a store -/
theorem storeEnter_turnover {w w' : World} {fuel i s r} (hg : Good ∅ w) (hc : Calm fuel w (.storeEnter i s r)) (h : exec fuel (.storeEnter i s r) w = .ok w') :
    ∃ l, Turnover (.storeEnter i s r) (.put i s none :: l) w w' ∧
      ((wanted w s i = none ∧ l = []) ∨ ∃ m l', wanted w s i = some m ∧ l = .take i s m.c :: l' ∧ Refill w s (w.inQ (.store s)).length l') := by
  have hg' := exec_good hg hc h
  simp only [exec] at h
  obtain ⟨l, fl, hl⟩ := storeEnter_flow hg h none (by simp)
  rw [show (w.queues (.store s)).len = (w.inQ (.store s)).length by simp [World.inQ, Queue.len]] at hl
  refine ⟨l, (Amid.same hg').turnover fl ?_ ?_ rfl rfl rfl, hl⟩
  · rintro j t p ⟨_, _, h⟩; cases h
  · rintro j t ⟨rfl, rfl, _⟩; exact ⟨rfl, rfl⟩

theorem storeLeave_turnover {w w' : World} {fuel i s} (hg : Good ∅ w) (hc : Calm fuel w (.storeLeave i s)) (h : exec fuel (.storeLeave i s) w = .ok w') :
    ∃ l, Turnover (.storeLeave i s) (.drop i s :: l) w w' ∧ Refill w s ((w.inQ (.store s)).length - 1) l := by
  have hg' := exec_good hg hc h
  simp only [exec] at h
  obtain ⟨a, l, k1, fl, hl⟩ := storeLeave_flow hg h
  rw [show (w.queues (.store s)).len = (w.inQ (.store s)).length by simp [World.inQ, Queue.len]] at hl
  refine ⟨l, ?_, hl⟩
  have W : Amid w a w' w' := ⟨hg', fun x d _ => ⟨by rw [k1.comps], rfl⟩, fun x d hd => by rw [World.inQ, k1.other (by simp)] at hd; exact hd,
    fun x d hd => by rw [World.inQ, k1.other (by simp)] at hd; exact hd, fun _ => ⟨rfl, rfl⟩, k1.now⟩
  refine ⟨(k1.drop (caps w')).append (by rw [fl.caps]; exact fl.led), ?_, ?_, ?_, ?_, ?_, ?_, ?_⟩
  · intro i t d hm
    rcases List.mem_cons.1 hm with hm | hm
    · cases hm
    · exact W.taken fl _ i t d hm
  · exact fl.takers
  · intro i t hm
    rcases List.mem_cons.1 hm with hm | hm
    · cases hm
    · rcases fl.puts i t none hm with ⟨hp, _⟩ | ⟨d, hd, _⟩
      · exact hp.elim
      · cases hd
  · intro i t p hm
    rcases List.mem_cons.1 hm with hm | hm
    · cases hm
    · exact W.stored fl (by intro _ _ _ h; exact h) i t p hm
  · exact fl.givers
  · intro i t hm
    rcases List.mem_cons.1 hm with hm | hm
    · cases hm; rfl
    · exact (fl.nodrop i t hm).elim
  · rw [List.filter_cons_of_pos (by simp [Move.isDrop]), nodrops fl.nodrop]; simp

theorem storeSetCapacity_turnover {w w' : World} {fuel s k} (hg : Good ∅ w) (hc : Calm fuel w (.storeSetCapacity s k))
    (h : exec fuel (.storeSetCapacity s k) w = .ok w') :
    ∃ l, Turnover (.storeSetCapacity s k) l w w' ∧ caps w' = Function.update (caps w) s k := by
  have hg' := exec_good hg hc h
  simp only [exec] at h
  unfold storeSetCapacity at h
  simp only at h
  have hin : ∀ q, (w.modQ (.store s) (fun q => q.setCapacity k)).inQ q = w.inQ q := fun q => by
    rw [inQ_modQ']; split
    · rename_i hs; rw [← hs]; rfl
    · rfl
  have g1 : Good ∅ (w.modQ (.store s) (fun q => q.setCapacity k)) := reset_good hg _ (fun _ => rfl)
  have hcap : caps (w.modQ (.store s) (fun q => q.setCapacity k)) = Function.update (caps w) s k := by
    funext x
    by_cases hx : x = s
    · subst hx; rw [Function.update_self, caps, modQ_queues_self]; rfl
    · rw [Function.update_of_ne hx, caps, modQ_queues_other (by simpa using hx)]; rfl
  split at h
  · obtain ⟨l, fl⟩ := rescanTo_flow fuel s _ g1 h
    refine ⟨l, Amid.turnover (a := w.modQ (.store s) (fun q => q.setCapacity k)) (b := w') ?_ fl (by intro _ _ _ h; exact h) (by intro _ _ h; exact h.elim)
      (by funext x; exact hin _) rfl rfl, fl.caps.trans hcap⟩
    exact ⟨hg', fun x d _ => ⟨rfl, rfl⟩, fun x d hd => by rw [hin] at hd; exact hd, fun x d hd => by rw [hin] at hd; exact hd, fun _ => ⟨rfl, rfl⟩, rfl⟩
  · cases h; exact ⟨[], .none (by funext x; exact hin _), hcap⟩

/-- C35: every call but `rescan` moves the items as described by `Turnover`; the capacities are changed by `set_capacity` only -/
theorem C35_turnover {w w' : World} {fuel o} (hg : Good ∅ w) (hc : Calm fuel w o) (hr : ∀ s, o ≠ .rescan s) (h : exec fuel o w = .ok w') :
    ∃ l, Turnover o l w w' ∧ caps w' = match o with | .storeSetCapacity s k => Function.update (caps w) s k | _ => caps w := by
  cases o
  case rescan s => exact (hr s rfl).elim
  case storeSetCapacity s k => exact storeSetCapacity_turnover hg hc h
  case fromStore c ss f k rp fa fd p u cp =>
    obtain ⟨_, hne, w2, b, ⟨item, s, w3, h1, h2, h3⟩ | ⟨_, h2, h3, _, _, _, _⟩⟩ := fromStore_start hg h
    · obtain ⟨hs, hf⟩ := searchStores_found w2 f k ss _ hne h1
      obtain ⟨l, t, hl⟩ := fromStore_turnover hg hc h b hs hf h2 h3
      refine ⟨_, t, ?_⟩
      obtain ⟨a, l, k1, fl, _⟩ := storeLeave_flow b.good h2
      have g3 : Good {c} w3 := ((trR_store _ fuel).2 _ _ _ b.good w3 h2).good
      obtain ⟨w4, h4', kk⟩ := wake_woken (w := w3.modC c (fun x => { x with fromItem := some item })) (inv_of_ev (ev_modC (fun _ => rfl)) g3.inv) c (some item)
      rw [h4'] at h3; cases h3
      have e1 : caps w' = caps w3 := by funext x; simp only [caps, kk.queues]; rfl
      have e2 : caps a = caps w2 := by funext x; exact k1.cap _
      rw [e1, fl.caps, e2, b.caps]
    · exact ⟨[], .none h2, h3⟩
  case toStore c ss i rp sp fa fd p u cp =>
    obtain ⟨_, hne, w2, b, ⟨s, w3, h1, h2, h3⟩ | ⟨_, h2, h3, _, _, _, _⟩⟩ := toStore_start hg h
    · obtain ⟨l, t, _⟩ := toStore_turnover hg hc h b (List.mem_of_find?_eq_some h1) h2 h3
      refine ⟨_, t, ?_⟩
      obtain ⟨l, fl, hl⟩ := storeEnter_flow b.good h2 none (by simp)
      have g3 : Good {c} w3 := ((trR_store _ fuel).1 _ _ _ _ b.good w3 h2).good
      obtain ⟨w4, h4', kk⟩ := wake_woken (w := w3.modC c (fun x => { x with toItem := none, toStores := [] })) (inv_of_ev (ev_modC (fun _ => rfl)) g3.inv) c none
      rw [h4'] at h3; cases h3
      have e1 : caps w' = caps w3 := by funext x; simp only [caps, kk.queues]; rfl
      rw [e1, fl.caps, b.caps]
    · exact ⟨[], .none h2, h3⟩
  case storeEnter i s r =>
    obtain ⟨l, t, _⟩ := storeEnter_turnover hg hc h
    simp only [exec] at h
    obtain ⟨l, fl, hl⟩ := storeEnter_flow hg h none (by simp)
    exact ⟨_, t, fl.caps⟩
  case storeLeave i s =>
    obtain ⟨l, t, _⟩ := storeLeave_turnover hg hc h
    simp only [exec] at h
    obtain ⟨a, l, k1, fl, hl⟩ := storeLeave_flow hg h
    have e2 : caps a = caps w := by funext x; exact k1.cap _
    exact ⟨_, t, fl.caps.trans e2⟩
  all_goals
    have st := (exec_still (C := conts w) (K := caps w) ⟨rfl, rfl⟩ fuel _ (by trivial)).to h
    exact ⟨[], .none st.1, st.2⟩

/-! ## histories -/

theorem refilter_good {w : World} (hg : Good ∅ w) (f) : Good ∅ (refilter f w) := by
  have hst : ∀ c, (refilter f w).status c = w.status c := fun _ => rfl
  refine ⟨inv_of_ev (w := w) ?_ hg.inv, hg.nd, fun c hc hi => ?_, hg.timed, hg.dat, fun q c hq => ?_, ?_, hg.sb.congr rfl rfl (fun _ => rfl)⟩
  · rfl
  · have := hg.idle c hc hi
    exact ⟨this.req, this.wai, this.frm, this.tos⟩
  · have := hg.coh q c hq
    cases q <;> exact this
  · exact ⟨hg.main.req, hg.main.wai, hg.main.frm, hg.main.tos⟩

theorem fresh_good {w : World} (h : Fresh w) : Good ∅ w := Reach.good (.init h)

theorem Life.good {w : World} (h : Life w) : Good ∅ w := by
  induction h with
  | start hf => exact fresh_good hf
  | call fuel o _ hc _ he ih => exact exec_good ih hc he
  | filters f _ ih => exact refilter_good ih f

/-- C35: every program has such a history -/
theorem C35_story {w : World} (h : Life w) : ∃ l, Story l w := by
  induction h with
  | start hf => exact ⟨[], .start hf⟩
  | call fuel o h1 hc hr he ih =>
    obtain ⟨l, hl⟩ := ih
    obtain ⟨m, hm, _⟩ := C35_turnover h1.good hc hr he
    exact ⟨l ++ m, .call fuel o m hl hc hr he hm⟩
  | filters f _ ih =>
    obtain ⟨l, hl⟩ := ih
    exact ⟨l, .filters f hl⟩

theorem Ledger.counts {cap : StId → ETime} {C D : StId → List CId} {l : List Move} (h : Ledger cap C l D) (i : CId) (s : StId) :
    (C s).count i + putCount i s l = takeCount i s l + dropCount i s l + (D s).count i := by
  induction h with
  | nil => simp [putCount, takeCount, dropCount]
  | @put C D l j t p a b h1 h2 h3 _ ih =>
    have e : (Function.update C t (a ++ j :: b) s).count i = (C s).count i + if j = i ∧ t = s then 1 else 0 := by
      by_cases ht : s = t
      · subst ht
        rw [Function.update_self, h3]
        simp only [List.count_append, List.count_cons, beq_iff_eq, and_true]
        omega
      · rw [Function.update_of_ne ht, if_neg (fun h => ht h.2.symm)]; rfl
    rw [e] at ih
    simp only [putCount, takeCount, dropCount, List.countP_cons] at ih ⊢
    by_cases hh : j = i ∧ t = s
    · simp only [hh, and_self, if_true, decide_true, Bool.false_eq_true, if_false] at ih ⊢; omega
    · simp only [hh, if_false, decide_false, Bool.false_eq_true] at ih ⊢; omega
  | @take C D l j t c a b h1 _ ih =>
    have e : (C s).count i = (Function.update C t (a ++ b) s).count i + if j = i ∧ t = s then 1 else 0 := by
      by_cases ht : s = t
      · subst ht
        rw [Function.update_self, h1]
        simp only [List.count_append, List.count_cons, beq_iff_eq, and_true]
        omega
      · rw [Function.update_of_ne ht, if_neg (fun h => ht h.2.symm)]; rfl
    simp only [putCount, takeCount, dropCount, List.countP_cons] at ih ⊢
    by_cases hh : j = i ∧ t = s
    · rw [if_pos hh] at e; simp only [hh, and_self, if_true, decide_true, Bool.false_eq_true, if_false]; omega
    · rw [if_neg hh] at e; simp only [hh, if_false, decide_false, Bool.false_eq_true]; omega
  | @drop C D l j t a b h1 _ ih =>
    have e : (C s).count i = (Function.update C t (a ++ b) s).count i + if j = i ∧ t = s then 1 else 0 := by
      by_cases ht : s = t
      · subst ht
        rw [Function.update_self, h1]
        simp only [List.count_append, List.count_cons, beq_iff_eq, and_true]
        omega
      · rw [Function.update_of_ne ht, if_neg (fun h => ht h.2.symm)]; rfl
    simp only [putCount, takeCount, dropCount, List.countP_cons] at ih ⊢
    by_cases hh : j = i ∧ t = s
    · rw [if_pos hh] at e; simp only [hh, and_self, if_true, decide_true, Bool.false_eq_true, if_false]; omega
    · rw [if_neg hh] at e; simp only [hh, if_false, decide_false, Bool.false_eq_true]; omega

theorem Fresh.empty {w : World} (h : Fresh w) (s : StId) : conts w s = [] := by
  obtain ⟨k, hk⟩ := h.queues (.store s)
  rw [conts, World.inQ, hk]; rfl

/-- C35: as many times as the item has been put into the store, it was handed to a component, or removed by `leave`, or is still in the store.
It's at most once in the store. -/
theorem C35_conservation {l : List Move} {w : World} (h : Story l w) (i : CId) (s : StId) :
    putCount i s l = takeCount i s l + dropCount i s l + (if i ∈ w.inQ (.store s) then 1 else 0) := by
  have key : putCount i s l = takeCount i s l + dropCount i s l + (conts w s).count i := by
    induction h with
    | start hf => simp [hf.empty, putCount, takeCount, dropCount]
    | call fuel o m _ _ _ _ ht ih =>
      have := ht.ledger.counts i s
      simp only [putCount, takeCount, dropCount, List.countP_append] at this ih ⊢
      omega
    | filters f _ ih => exact ih
  rw [key]
  have hg : Good ∅ w := by
    clear key
    induction h with
    | start hf => exact fresh_good hf
    | call fuel o m _ hc _ he _ ih => exact exec_good ih hc he
    | filters f _ ih => exact refilter_good ih f
  congr 1
  split
  · rename_i hm
    exact List.count_eq_one_of_mem (hg.nd _) hm
  · rename_i hm
    exact List.count_eq_zero_of_not_mem hm

/-! ## capacity -/

theorem Ledger.room {cap : StId → ETime} {C D : StId → List CId} {l : List Move} (h : Ledger cap C l D) (s : StId)
    (hc : (((C s).length : Nat) : Rat) ≤ cap s) : (((D s).length : Nat) : Rat) ≤ cap s := by
  have mono : ∀ {m n : Nat}, m ≤ n → ((n : Rat) : ETime) ≤ cap s → ((m : Rat) : ETime) ≤ cap s := fun h h1 =>
    (WithTop.coe_le_coe.2 (Nat.cast_le.2 h)).trans h1
  induction h with
  | nil => exact hc
  | @put C D l j t p a b h1 h2 h3 _ ih =>
    refine ih ?_
    by_cases ht : s = t
    · subst ht
      rw [Function.update_self]
      refine mono ?_ h2
      rw [h3]; simp; omega
    · rw [Function.update_of_ne ht]; exact hc
  | @take C D l j t c a b h1 _ ih =>
    refine ih ?_
    by_cases ht : s = t
    · subst ht
      rw [Function.update_self]
      refine mono ?_ hc
      rw [h1]; simp
    · rw [Function.update_of_ne ht]; exact hc
  | @drop C D l j t a b h1 _ ih =>
    refine ih ?_
    by_cases ht : s = t
    · subst ht
      rw [Function.update_self]
      refine mono ?_ hc
      rw [h1]; simp
    · rw [Function.update_of_ne ht]; exact hc

theorem rescanItems_ledger {e : Set CId} {fuel : Nat} {c : CId} {s : StId} {w0 : World} (hact : ¬ NoWait (w0.comps c)) :
    ∀ (l : List CId) (w w' : World), Tr e w0 w → forR l (rescanItems fuel c s) w = .ok w' →
      caps w' = caps w ∧ ∃ m, Ledger (caps w) (conts w) m (conts w')
  | [], w, w', t, h => by cases h; exact ⟨rfl, [], .nil _⟩
  | item :: l, w, w', t, h => by
    unfold forR at h
    obtain ⟨w1, h1, h2⟩ := andThen_ok h
    have t1 : Tr e w0 w1 := rescanItems_tr hact [item] w w1 t (by unfold forR; rw [h1]; rfl)
    obtain ⟨k2, m2, L2⟩ := rescanItems_ledger hact l w1 w' t1 h2
    have k1 : caps w1 = caps w ∧ ∃ m, Ledger (caps w) (conts w) m (conts w1) := by
      unfold rescanItems at h1
      split at h1
      · obtain ⟨a, ha, h1⟩ := andThen_ok h1
        obtain ⟨b, hb, h4⟩ := andThen_ok h1
        obtain ⟨l2, n2⟩ := leaveFrom_good t.good ha
        obtain ⟨_, _, _, qa, capa, _⟩ := leaves_away (K := fun s => .fromReq s) _ ha
        obtain ⟨a1, m, o1, fl, _⟩ := storeLeave_flow (l2.good t.good) hb
        have gb : Good e b := ((trR_store e fuel).2 _ _ _ (l2.good t.good) b hb).good
        obtain ⟨w4, h4', kk⟩ := wake_woken (w := b.modC c (fun x => { x with fromStores := [], fromItem := some item }))
          (inv_of_ev (ev_modC (fun _ => rfl)) gb.inv) c (some item)
        rw [h4'] at h4; cases h4
        have e1 : caps w1 = caps b := by funext x; simp only [caps, kk.queues]; rfl
        have e2 : conts w1 = conts b := by funext x; simp only [conts, World.inQ, kk.queues]; rfl
        have e3 : caps a1 = caps a := by funext x; exact o1.cap _
        have e4 : caps a = caps w := by funext x; exact capa _
        have e5 : conts a = conts w := by funext x; exact congrArg (fun q => q.mem.map QMem.c) (qa (.store x) (by simp))
        refine ⟨by rw [e1, fl.caps, e3, e4], .take item s c :: m, ?_⟩
        have L0 : Ledger (caps w) (conts a1) m (conts w1) := by rw [e2, ← e4, ← e3]; exact fl.led
        have L := (o1.take (caps w) c).append L0
        rw [e5] at L; exact L
      · cases h1; exact ⟨rfl, [], .nil _⟩
    obtain ⟨k1, m1, L1⟩ := k1
    exact ⟨k2.trans k1, m1 ++ m2, L1.append (by rw [← k1]; exact L2)⟩

/-- what `rescan` does to the contents: items leave the store, one at a time, after which items of waiting components may get in -/
theorem rescan_ledger {e : Set CId} {w w' : World} {fuel s} (hg : Good e w) (h : rescan fuel s w = .ok w') :
    caps w' = caps w ∧ ∃ m, Ledger (caps w) (conts w) m (conts w') := by
  unfold rescan at h
  generalize w.inQ (.fromReq s) = l at h
  induction l generalizing w with
  | nil => cases h; exact ⟨rfl, [], .nil _⟩
  | cons c t ih =>
    unfold forR at h
    obtain ⟨w1, h1, h2⟩ := andThen_ok h
    have k1 : (caps w1 = caps w ∧ ∃ m, Ledger (caps w) (conts w) m (conts w1)) ∧ Good e w1 := by
      split at h1
      · rename_i hh
        rw [has_inQ] at hh
        have hact := hg.waits_of_inQ rfl hh
        exact ⟨rescanItems_ledger hact _ _ _ (.refl hg) h1, (rescanItems_tr hact _ _ _ (.refl hg) h1).good⟩
      · cases h1; exact ⟨⟨rfl, [], .nil _⟩, hg⟩
    obtain ⟨⟨k1, m1, L1⟩, g1⟩ := k1
    obtain ⟨k2, m2, L2⟩ := ih g1 h2
    exact ⟨k2.trans k1, m1 ++ m2, L1.append (by rw [← k1]; exact L2)⟩

/-- `set_capacity` doesn't set the capacity of a store below the number of items in it -/
def Roomy (fuel : Nat) (w : World) (o : Op) : Prop := Calm fuel w o ∧ match o with
  | .storeSetCapacity s k => (((w.inQ (.store s)).length : Nat) : Rat) ≤ k
  | _ => True

theorem After.roomy {w0 w : World} (h : After Roomy w0 w) (h0 : Good ∅ w0) : Good ∅ w := by
  induction h with
  | refl => exact h0
  | op fuel o _ ho ih =>
    obtain ⟨w', hw'⟩ := ho.1.1
    rw [hw']; exact exec_good ih ho.1 hw'

/-- C35: the number of items in a store never exceeds its capacity (unless `set_capacity` makes it so) -/
theorem C35_capacity {w0 w : World} (h0 : Fresh w0) (h : After Roomy w0 w) (s : StId) (hk : (0 : Rat) ≤ (w0.queues (.store s)).cap) :
    (((w.inQ (.store s)).length : Nat) : Rat) ≤ (w.queues (.store s)).cap := by
  induction h with
  | refl => rw [show w0.inQ (.store s) = [] from h0.empty s]; exact hk
  | @op w1 fuel o h1 ho ih =>
    have hg := h1.roomy (fresh_good h0)
    obtain ⟨w', hw'⟩ := ho.1.1
    rw [hw']
    by_cases hr : ∃ t, o = .rescan t
    · obtain ⟨t, rfl⟩ := hr
      obtain ⟨k, m, L⟩ := rescan_ledger hg hw'
      have := L.room s ih
      rwa [← congrFun k s] at this
    · push Not at hr
      obtain ⟨l, T, k⟩ := C35_turnover hg ho.1 hr hw'
      refine T.ledger.room s ?_
      rw [k]
      cases o <;> try exact ih
      rename_i t k'
      simp only
      by_cases hs : s = t
      · subst hs; rw [Function.update_self]; exact ho.2
      · rw [Function.update_of_ne hs]; exact ih

/-! ## serving -/

/-- the first of the waiting requesters that accepts the item -/
def FirstOf (w : World) (s : StId) (i c : CId) : Prop :=
  ∃ a b, w.inQ (.fromReq s) = a ++ c :: b ∧ (w.comps c).fromFilter i = true ∧ ∀ d ∈ a, (w.comps d).fromFilter i = false
/-- none of the waiting requesters accepts it -/
def Unwanted (w : World) (s : StId) (i : CId) : Prop := ∀ d ∈ w.inQ (.fromReq s), (w.comps d).fromFilter i = false

theorem wanted_served {w : World} {s i m} (h : wanted w s i = some m) : FirstOf w s i m.c := by
  obtain ⟨h1, a, b, h2, h3⟩ := List.find?_eq_some_iff_append.1 h
  refine ⟨a.map QMem.c, b.map QMem.c, by rw [World.inQ, h2]; simp, h1, ?_⟩
  intro d hd
  obtain ⟨x, hx, rfl⟩ := List.mem_map.1 hd
  simpa using h3 x hx
theorem wanted_unwanted {w : World} {s i} (h : wanted w s i = none) : Unwanted w s i := by
  intro d hd
  obtain ⟨x, hx, rfl⟩ := List.mem_map.1 hd
  simpa using List.find?_eq_none.1 h x hx
theorem FirstOf.unique {w : World} {s i c d} (h : FirstOf w s i c) (h2 : FirstOf w s i d) : d = c := by
  obtain ⟨a, b, h1, hc, ha⟩ := h
  obtain ⟨a', b', h1', hd, ha'⟩ := h2
  rw [h1] at h1'
  rcases List.append_eq_append_iff.1 h1' with ⟨x, hx, hy⟩ | ⟨x, hx, hy⟩
  · cases x with
    | nil => simp at hy; exact hy.1.symm
    | cons y t =>
      simp only [List.cons_append, List.cons.injEq] at hy
      have := ha' c (by rw [hx, hy.1]; simp)
      rw [hc] at this; cases this
  · cases x with
    | nil => simp at hy; exact hy.1
    | cons y t =>
      simp only [List.cons_append, List.cons.injEq] at hy
      have := ha d (by rw [hx, hy.1]; simp)
      rw [hd] at this; cases this

theorem Refill.short {w : World} {s : StId} {n : Nat} {l : List Move} (h : Refill w s n l) : l.length ≤ 1 := by
  rcases h.one with rfl | ⟨y, p, rfl⟩ <;> simp

theorem Begun.refill {c : CId} {w w2 : World} (b : Begun c w w2) (hs : w.status c = .current) {s : StId} {n : Nat} {l : List Move}
    (h : Refill w2 s n l) : Refill w s n l :=
  h.congr (by simp only [World.inQ, b.cur hs]) (by rw [b.cur hs]) (fun p hp => by
    rw [b.other p (by rintro rfl; exact b.notin rfl hp)])

/-- C36: `leave` takes the item out of the store, after which the first component waiting to put an item into the store does so, if there's room -/
theorem C36_leave {w w' : World} {fuel i s} (hl : Life w) (hc : Calm fuel w (.storeLeave i s)) (h : exec fuel (.storeLeave i s) w = .ok w') :
    ∃ l, Turnover (.storeLeave i s) (.drop i s :: l) w w' ∧ Refill w s ((w.inQ (.store s)).length - 1) l :=
  storeLeave_turnover hl.good hc h

/-- C36: an item that is put into a store by `enter` goes to the first waiting requester whose filter accepts it, if there's one -/
theorem C36_enter {w w' : World} {fuel i s r} (hl : Life w) (hc : Calm fuel w (.storeEnter i s r)) (h : exec fuel (.storeEnter i s r) w = .ok w') :
    (∀ c, FirstOf w s i c → ∃ l, Turnover (.storeEnter i s r) (.put i s none :: .take i s c :: l) w w' ∧
      Refill w s (w.inQ (.store s)).length l) ∧
    (Unwanted w s i → Turnover (.storeEnter i s r) [.put i s none] w w') := by
  obtain ⟨l, T, ⟨hn, rfl⟩ | ⟨m, l', hm, rfl, hr⟩⟩ := storeEnter_turnover hl.good hc h
  · refine ⟨fun c hs => ?_, fun _ => T⟩
    obtain ⟨a, b, h1, h2, _⟩ := hs
    have := wanted_unwanted hn c (by rw [h1]; simp)
    rw [h2] at this; cases this
  · refine ⟨fun c hs => ?_, fun hu => ?_⟩
    · have := (wanted_served hm).unique hs
      subst this
      exact ⟨l', T, hr⟩
    · obtain ⟨a, b, h1, h2, _⟩ := wanted_served hm
      have := hu m.c (by rw [h1]; simp)
      rw [h2] at this; cases this

/-- `available_quantity()` is positive -/
def HasRoom (w : World) (s : StId) : Prop := (((w.inQ (.store s)).length : Nat) : Rat) < (w.queues (.store s)).cap

theorem roomIn_iff {w : World} {s : StId} : roomIn w s = true ↔ HasRoom w s := by
  unfold roomIn HasRoom ETime.subQ World.inQ Queue.len
  simp only [decide_eq_true_eq, List.length_map]
  cases (w.queues (.store s)).cap using WithTop.recTopCoe with
  | top => simp
  | coe k => simp only [WithTop.map_coe, gt_iff_lt]; rw [WithTop.coe_lt_coe, WithTop.coe_lt_coe, sub_pos]

theorem Begun.served {c : CId} {w w2 : World} (b : Begun c w w2) (hs : w.status c = .current) (s : StId) (i : CId) :
    (∀ d, FirstOf w s i d → FirstOf w2 s i d) ∧ (Unwanted w s i → Unwanted w2 s i) := by
  have hq : w2.inQ (.fromReq s) = w.inQ (.fromReq s) := by simp only [World.inQ, b.cur hs]
  have hne : ∀ d, d ∈ w.inQ (.fromReq s) → w2.comps d = w.comps d := fun d hd => b.other d (by
    rintro rfl
    rw [← hq] at hd
    exact b.notin rfl hd)
  refine ⟨fun d hd => ?_, fun h d hd => ?_⟩
  · obtain ⟨x, y, h1, h2, h3⟩ := hd
    refine ⟨x, y, hq.trans h1, ?_, fun e he => ?_⟩
    · rw [hne d (by rw [h1]; simp)]; exact h2
    · rw [hne e (by rw [h1]; simp [he])]; exact h3 e he
  · rw [hq] at hd
    rw [hne d hd]; exact h d hd

/-- C36: `to_store` puts the item in the first of the stores that has room, where it goes to the first waiting requester whose filter accepts
it, if there's one; if none of the stores has room, the caller waits in all of them -/
theorem C36_to_store {w w' : World} {fuel c ss i rp sp fa fd p u cp} (hl : Life w) (hcur : w.status c = .current)
    (hc : Calm fuel w (.toStore c ss i rp sp fa fd p u cp)) (h : exec fuel (.toStore c ss i rp sp fa fd p u cp) w = .ok w') :
    (∀ s1 s s2, ss = s1 ++ s :: s2 → (∀ t ∈ s1, ¬ HasRoom w t) → HasRoom w s → Goes w w' c ∧
      (∀ d, FirstOf w s i d → ∃ l, Turnover (.toStore c ss i rp sp fa fd p u cp) (.put i s none :: .take i s d :: l) w w' ∧
        Refill w s (w.inQ (.store s)).length l) ∧
      (Unwanted w s i → Turnover (.toStore c ss i rp sp fa fd p u cp) [.put i s none] w w')) ∧
    ((∀ t ∈ ss, ¬ HasRoom w t) → conts w' = conts w ∧ w'.status c = .requesting ∧ (∀ t ∈ ss, c ∈ w'.inQ (.toReq t)) ∧
      (w'.comps c).toItem = some i ∧ ∀ d, d ≠ c → w'.comps d = w.comps d) := by
  obtain ⟨_, hne, w2, b, hh⟩ := toStore_start hl.good h
  have hroom : ∀ t, roomIn w2 t = true ↔ HasRoom w t := fun t => by
    rw [roomIn_iff]; unfold HasRoom World.inQ; rw [b.cur hcur]
  rcases hh with ⟨s, w3, h1, h2, h3⟩ | ⟨h1, h2, _, h3, h4, h5, h6⟩
  · obtain ⟨k1, a1, a2, k2, k3⟩ := List.find?_eq_some_iff_append.1 h1
    obtain ⟨l, T, hl', hgo⟩ := toStore_turnover hl.good hc h b (List.mem_of_find?_eq_some h1) h2 h3
    refine ⟨fun s1 s' s2 hss hno hyes => ?_, fun hno => ?_⟩
    · have hs' : s' = s := by
        have e : ss.find? (fun s => roomIn w2 s) = some s' := by
          rw [List.find?_eq_some_iff_append]
          exact ⟨(hroom s').2 hyes, s1, s2, hss, fun x hx => by simpa using fun hx' => hno x hx ((hroom x).1 hx')⟩
        rw [h1] at e; cases e; rfl
      subst hs'
      refine ⟨hgo, fun d hd => ?_, fun hu => ?_⟩
      · have hd' := (b.served hcur _ _).1 d hd
        rcases hl' with ⟨hn, rfl⟩ | ⟨m, l', hm, rfl, hr⟩
        · obtain ⟨x, y, e1, e2, _⟩ := hd'
          have := wanted_unwanted hn d (by rw [e1]; simp)
          rw [e2] at this; cases this
        · have := (wanted_served hm).unique hd'
          subst this
          exact ⟨l', T, b.refill hcur hr⟩
      · have hu' := (b.served hcur _ _).2 hu
        rcases hl' with ⟨hn, rfl⟩ | ⟨m, l', hm, rfl, hr⟩
        · exact T
        · obtain ⟨x, y, e1, e2, _⟩ := wanted_served hm
          have := hu' m.c (by rw [e1]; simp)
          rw [e2] at this; cases this
    · exact (hno s (List.mem_of_find?_eq_some h1) ((hroom s).1 k1)).elim
  · refine ⟨fun s1 s s2 hss _ hyes => ?_, fun _ => ⟨h2, h4, h3, h5, h6⟩⟩
    have := List.find?_eq_none.1 h1 s (by rw [hss]; simp)
    exact (this ((hroom s).2 hyes)).elim

/-- none of the stores has an item that's accepted -/
def NoMatch (w : World) (f : CId → Bool) (ss : List StId) : Prop := ∀ t ∈ ss, ∀ x ∈ w.inQ (.store t), f x = false

/-- C36: `from_store` without a key hands out the first item (in the order of the store) that's accepted, of the first of the stores that
has one; the caller continues with that item. If there's none, the caller waits in all of the stores. -/
theorem C36_from_store {w w' : World} {fuel c ss f rp fa fd p u cp} (hl : Life w)
    (hc : Calm fuel w (.fromStore c ss f none rp fa fd p u cp)) (h : exec fuel (.fromStore c ss f none rp fa fd p u cp) w = .ok w') :
    (∀ s1 s s2 a i b, ss = s1 ++ s :: s2 → NoMatch w f s1 → w.inQ (.store s) = a ++ i :: b → (∀ x ∈ a, f x = false) → f i = true →
      ∃ l, Turnover (.fromStore c ss f none rp fa fd p u cp) (.take i s c :: l) w w' ∧ l.length ≤ 1 ∧
      (w.status c = .current → Refill w s ((w.inQ (.store s)).length - 1) l)) ∧
    (NoMatch w f ss → conts w' = conts w ∧ w'.status c = .requesting ∧ (∀ t ∈ ss, c ∈ w'.inQ (.fromReq t)) ∧
      (w'.comps c).fromFilter = f ∧ ∀ d, d ≠ c → w'.comps d = w.comps d) := by
  obtain ⟨hnd, hne, w2, b, hh⟩ := fromStore_start hl.good h
  have hq : ∀ t, conts w2 t = w.inQ (.store t) := fun t => congrFun b.conts t
  rcases hh with ⟨item, s, w3, h1, h2, h3⟩ | ⟨⟨s, h1⟩, h2, _, h3, h4, h5, h6⟩
  · obtain ⟨hs, hf⟩ := searchStores_found w2 f none ss _ hne h1
    obtain ⟨l, T, hr⟩ := fromStore_turnover hl.good hc h b hs hf h2 h3
    obtain ⟨s1', s2', a', b', e1, e2, e3, _, e4⟩ := searchStores_nokey w2 f ss _ h1
    refine ⟨fun s1 s' s2 x i y hss hno hst hx hi => ?_, fun hno => ?_⟩
    · have hs' : s' = s ∧ i = item := by
        have hmem : ∃ z ∈ w.inQ (.store s), f z = true := ⟨item, by rw [← hq, e3]; simp, hf⟩
        have hmem' : ∃ z ∈ conts w2 s', f z = true := ⟨i, by rw [hq, hst]; simp, hi⟩
        have hss' : s' = s := by
          rw [e1] at hss
          rcases List.append_eq_append_iff.1 hss with ⟨k, hk, hk2⟩ | ⟨k, hk, hk2⟩
          · cases k with
            | nil => simp at hk2; exact hk2.1.symm
            | cons y t =>
              simp only [List.cons_append, List.cons.injEq] at hk2
              obtain ⟨z, hz, hz2⟩ := hmem
              have := hno s (by rw [hk, hk2.1]; simp) z hz
              rw [hz2] at this; cases this
          · cases k with
            | nil => simp at hk2; exact hk2.1
            | cons y t =>
              simp only [List.cons_append, List.cons.injEq] at hk2
              obtain ⟨z, hz, hz2⟩ := hmem'
              have := e2 s' (by rw [hk, hk2.1]; simp) z hz
              rw [hz2] at this; cases this
        subst hss'
        refine ⟨rfl, ?_⟩
        have e5 : (w.inQ (.store s')).find? f = some i := List.find?_eq_some_iff_append.2 ⟨hi, x, y, hst, fun z hz => by simpa using hx z hz⟩
        have e6 : (w.inQ (.store s')).find? f = some item :=
          List.find?_eq_some_iff_append.2 ⟨hf, a', b', by rw [← hq, e3], fun z hz => by simpa using e4 z hz⟩
        rw [e5] at e6; cases e6; rfl
      obtain ⟨rfl, rfl⟩ := hs'
      exact ⟨l, T, hr.short, fun hs => b.refill hs hr⟩
    · have := hno s hs item (by rw [← hq, e3]; simp)
      rw [hf] at this; cases this
  · refine ⟨fun s1 s' s2 x i y hss hno hst hx hi => ?_, fun _ => ⟨h2, h4, h3, h5, h6⟩⟩
    have := searchStores_none w2 f none ss _ h1 s' (by rw [hss]; simp) i (by rw [hq, hst]; simp)
    rw [hi] at this; cases this

theorem Best.unique {f : CId → Bool} {k : CId → Rat} {l : List CId} {i j : CId} (h : Best f k l i) (h2 : Best f k l j) : j = i := by
  obtain ⟨a, b, e1, f1, p1, q1⟩ := h.split
  obtain ⟨a', b', e2, f2, p2, q2⟩ := h2.split
  rw [e1] at e2
  rcases List.append_eq_append_iff.1 e2 with ⟨x, hx, hy⟩ | ⟨x, hx, hy⟩
  · cases x with
    | nil => simp at hy; exact hy.1.symm
    | cons y t =>
      simp only [List.cons_append, List.cons.injEq] at hy
      have h1 := p2 i (by rw [hx, hy.1]; simp) f1
      have h3 := q1 j (by rw [hy.2]; simp) f2
      exact absurd h1 (not_lt.2 h3)
  · cases x with
    | nil => simp at hy; exact hy.1
    | cons y t =>
      simp only [List.cons_append, List.cons.injEq] at hy
      have h1 := p1 j (by rw [hx, hy.1]; simp) f2
      have h3 := q2 i (by rw [hy.2]; simp) f1
      exact absurd h1 (not_lt.2 h3)

/-- C36: `from_store` with a key, on one store, hands out the item with the smallest key of those that are accepted, the first one if there's
more than one such item -/
theorem C36_from_store_key {w w' : World} {fuel c s f k rp fa fd p u cp} (hl : Life w)
    (hc : Calm fuel w (.fromStore c [s] f (some k) rp fa fd p u cp)) (h : exec fuel (.fromStore c [s] f (some k) rp fa fd p u cp) w = .ok w') :
    (∀ i, Best f k (w.inQ (.store s)) i →
      ∃ l, Turnover (.fromStore c [s] f (some k) rp fa fd p u cp) (.take i s c :: l) w w' ∧ l.length ≤ 1 ∧
      (w.status c = .current → Refill w s ((w.inQ (.store s)).length - 1) l)) ∧
    (NoMatch w f [s] → conts w' = conts w ∧ w'.status c = .requesting ∧ c ∈ w'.inQ (.fromReq s) ∧
      (w'.comps c).fromFilter = f ∧ ∀ d, d ≠ c → w'.comps d = w.comps d) := by
  obtain ⟨hnd, hne, w2, b, hh⟩ := fromStore_start hl.good h
  have hq : ∀ t, conts w2 t = w.inQ (.store t) := fun t => congrFun b.conts t
  rcases hh with ⟨item, s', w3, h1, h2, h3⟩ | ⟨⟨s', h1⟩, h2, _, h3, h4, h5, h6⟩
  · obtain ⟨hs, hf⟩ := searchStores_found w2 f (some k) [s] _ hne h1
    obtain ⟨l, T, hr⟩ := fromStore_turnover hl.good hc h b hs hf h2 h3
    simp only [List.mem_singleton] at hs
    subst hs
    have key := (searchStores_key w2 f k [s'] [] none (([s'] : List StId).headD 0) (by simp [Found])).1
    rw [h1] at key
    simp only [List.nil_append, List.flatMap_cons, List.flatMap_nil, List.append_nil, hq] at key
    refine ⟨fun i hi => ?_, fun hno => ?_⟩
    · have := Best.unique key hi
      subst this
      exact ⟨l, T, hr.short, fun hs => b.refill hs hr⟩
    · obtain ⟨x, y, e1, e2, _⟩ := (show Best f k _ item from key).split
      have := hno s' (by simp) item (by rw [e1]; simp)
      rw [e2] at this; cases this
  · refine ⟨fun i hi => ?_, fun _ => ⟨h2, h4, h3 s (by simp), h5, h6⟩⟩
    obtain ⟨x, y, e1, e2, _⟩ := hi.split
    have := searchStores_none w2 f (some k) [s] _ h1 s (by simp) i (by rw [hq, e1]; simp)
    rw [e2] at this; cases this

/-! ## examples -/

def Op.isRescan : Op → Bool
  | .rescan _ => true
  | _ => false

theorem life_all (fuel : Nat) {w : World} (h : Life w) (ops : List Op) (hc : calmAll fuel ops w = true) (hr : ops.all (fun o => !o.isRescan) = true) :
    Life (execAll fuel ops w) := by
  induction ops generalizing w with
  | nil => exact h
  | cons o os ih =>
    simp only [calmAll, Bool.and_eq_true] at hc
    simp only [List.all_cons, Bool.and_eq_true] at hr
    have c := calmb_calm hc.1
    obtain ⟨w', hw'⟩ := c.1
    have hc2 := hc.2
    unfold execAll
    rw [hw'] at hc2 ⊢
    exact ih (.call fuel o h c (by rintro s rfl; simp [Op.isRescan] at hr) hw') hc2 hr.2

/-- store 0 may have two items, store 1 one item -/
def depot : World := { World.init with queues := fun q => match q with
  | .store 0 => { cap := (2 : Rat) }
  | .store 1 => { cap := (1 : Rat) }
  | _ => {} }

theorem fresh_depot : Fresh depot := by
  refine ⟨rfl, rfl, rfl, rfl, fresh_init.comps, fun q => ?_, fun q hq => ?_, fresh_init.res, fresh_init.log, fun _ => rfl⟩
  · unfold depot
    simp only
    split
    · exact ⟨_, rfl⟩
    · exact ⟨_, rfl⟩
    · exact ⟨⊤, rfl⟩
  · unfold depot
    simp only
    split
    · cases hq
    · cases hq
    · rfl

/-- wants an item of the list -/
def want (c : CId) (ss : List StId) (l : List CId) : Op := .fromStore c ss (fun i => l.contains i) none 0 none none (0 : Rat) false false
/-- brings an item -/
def bring (c : CId) (ss : List StId) (i : CId) : Op := .toStore c ss i 0 0 none none (0 : Rat) false false

/-- components 1 and 2 are waiting for item 100 or 101, and item 101 from store 0; items 102 and 103 are in store 0, which is full;
component 3 is waiting to put item 104 into store 0; item 105 is in store 1; component 4 is current -/
def depotOps : List Op := begin 1 ++ [want 1 [0] [100, 101]] ++ begin 2 ++ [want 2 [0, 1] [101]] ++
  [.storeEnter 102 0 none, .storeEnter 103 0 none] ++ begin 3 ++ [bring 3 [0] 104, .storeEnter 105 1 none] ++ begin 4

def depotW : World := execAll 20 depotOps depot

theorem depotW_life : Life depotW := life_all _ (.start fresh_depot) _ (by decide +kernel) (by decide +kernel)

example : depotW.inQ (.store 0) = [102, 103] ∧ depotW.inQ (.store 1) = [105] ∧ depotW.inQ (.fromReq 0) = [1, 2] ∧ depotW.inQ (.toReq 0) = [3] ∧
    depotW.status 4 = .current := by decide +kernel

/-- the hypotheses of `C36_from_store`, and of `C35_turnover`: component 4 gets item 103 of store 0, after which item 104 is put into the store -/
example : calmb 20 depotW (want 4 [1, 0] [103, 102]) = true ∧
    (exec 20 (want 4 [1, 0] [103, 102]) depotW).world.inQ (.store 0) = [103, 104] ∧
    ((exec 20 (want 4 [1, 0] [103, 102]) depotW).world.comps 4).fromItem = some 102 ∧
    NoMatch depotW (fun i => [103, 102].contains i) [1] ∧
    (List.range 5).map (exec 20 (want 4 [1, 0] [103, 102]) depotW).world.status = [.current, .requesting, .requesting, .scheduled, .scheduled] := by
  refine ⟨?_, ?_, ?_, ?_, ?_⟩
  all_goals first | decide +kernel | skip
  intro t ht x hx
  simp only [List.mem_singleton] at ht
  subst ht
  rw [show depotW.inQ (.store 1) = [105] by decide +kernel] at hx
  simp only [List.mem_singleton] at hx
  subst hx; rfl

/-- the hypotheses of `C36_from_store_key`: the item with the largest number -/
example : calmb 20 depotW (.fromStore 4 [0] (fun _ => true) (some fun i => -(i : Rat)) 0 none none (0 : Rat) false false) = true ∧
    Best (fun _ => true) (fun i => -(i : Rat)) (depotW.inQ (.store 0)) 103 := by
  refine ⟨by decide +kernel, ⟨[102], [], by decide +kernel, rfl, ?_, by simp⟩⟩
  intro x hx _
  simp only [List.mem_singleton] at hx
  subst hx
  decide +kernel

/-- room is made, by taking out item 102 when 104 is in; then the hypotheses of `C36_enter` and `C36_to_store` hold: item 101 goes to component 1,
which is the first of the waiting components that accept it -/
def roomyW : World := execAll 20 [.storeLeave 102 0, .storeLeave 103 0] depotW

theorem roomyW_life : Life roomyW := life_all _ depotW_life _ (by decide +kernel) (by decide +kernel)

example : roomyW.inQ (.store 0) = [104] ∧ roomyW.status 4 = .current ∧ calmb 20 roomyW (.storeEnter 101 0 none) = true ∧
    calmb 20 roomyW (bring 4 [1, 0] 101) = true ∧ FirstOf roomyW 0 101 1 ∧ Unwanted roomyW 0 106 ∧ HasRoom roomyW 0 ∧ ¬ HasRoom roomyW 1 ∧
    ((exec 20 (bring 4 [1, 0] 101) roomyW).world.comps 1).fromItem = some 101 := by
  refine ⟨by decide +kernel, by decide +kernel, by decide +kernel, by decide +kernel, ⟨[], [2], by decide +kernel, by decide +kernel, by simp⟩, ?_, ?_, ?_,
    by decide +kernel⟩
  · intro d hd
    rw [show roomyW.inQ (.fromReq 0) = [1, 2] by decide +kernel] at hd
    simp only [List.mem_cons, List.not_mem_nil, or_false] at hd
    rcases hd with rfl | rfl <;> decide +kernel
  · rw [← roomIn_iff]; decide +kernel
  · rw [← roomIn_iff]; decide +kernel

def Op.setsStore : Op → Bool
  | .storeSetCapacity .. => true
  | _ => false

theorem after_all (fuel : Nat) {w0 w : World} (h : After Roomy w0 w) (ops : List Op) (hc : calmAll fuel ops w = true)
    (hr : ops.all (fun o => !o.setsStore) = true) : After Roomy w0 (execAll fuel ops w) := by
  induction ops generalizing w with
  | nil => exact h
  | cons o os ih =>
    simp only [calmAll, Bool.and_eq_true] at hc
    simp only [List.all_cons, Bool.and_eq_true] at hr
    refine ih (.op fuel o h ⟨calmb_calm hc.1, ?_⟩) hc.2 hr.2
    cases o <;> first | trivial | simp [Op.setsStore] at hr

/-- the hypotheses of `C35_capacity` -/
example : Fresh depot ∧ (0 : Rat) ≤ (depot.queues (.store 0)).cap ∧ After Roomy depot depotW ∧ (depotW.inQ (.store 0)).length = 2 :=
  ⟨fresh_depot, by decide +kernel, after_all 20 .refl _ (by decide +kernel) (by decide +kernel), by decide +kernel⟩

/-- a story: item 104, in the store, has been put once more than it was handed out or removed -/
example : ∃ l, Story l roomyW ∧ putCount 104 0 l = takeCount 104 0 l + dropCount 104 0 l + 1 := by
  obtain ⟨l, hl⟩ := C35_story roomyW_life
  refine ⟨l, hl, ?_⟩
  have := C35_conservation hl 104 0
  rwa [if_pos (by decide +kernel)] at this

/-! ## what doesn't hold -/

/-- The claim "each item put into a store is in the store or has been handed to a component" is false for `rescan`: component 1, waiting for an
item, accepts two of them after the filter (of the user) has changed; both leave the store, and the component is handed only one. There's no
other component waiting. -/
theorem C35_rescan_counterexample : ∃ w w' : World, Life w ∧ Calm 20 w (.rescan 0) ∧ exec 20 (.rescan 0) w = .ok w' ∧
    w.inQ (.store 0) = [100, 101] ∧ w.inQ (.fromReq 0) = [1] ∧ w'.inQ (.store 0) = [] ∧ (w'.comps 1).fromItem = some 101 := by
  let w0 := execAll 20 (begin 1 ++ [want 1 [0] [], .storeEnter 100 0 none, .storeEnter 101 0 none]) depot
  refine ⟨refilter (fun _ _ => true) w0, _, .filters _ (life_all _ (.start fresh_depot) _ (by decide +kernel) (by decide +kernel)),
    calmb_calm (by decide +kernel), ok_world (by decide +kernel), ?_, ?_, ?_, ?_⟩ <;> decide +kernel

/-- The claim "the one with the smallest key" is false for more than one store: item 100 of store 0 has the smallest key, but the call tries to
take it out of the last store, store 1, and raises -/
theorem C36_key_counterexample : ∃ w : World, Life w ∧ w.status 1 = .current ∧ w.inQ (.store 0) = [100] ∧ w.inQ (.store 1) = [101] ∧
    (exec 20 (.fromStore 1 [0, 1] (fun _ => true) (some fun i => (i : Rat)) 0 none none (0 : Rat) false false) w).isOk = false := by
  refine ⟨execAll 20 ([.storeEnter 100 0 none, .storeEnter 101 1 none] ++ begin 1) depot,
    life_all _ (.start fresh_depot) _ (by decide +kernel) (by decide +kernel), ?_, ?_, ?_, ?_⟩ <;> decide +kernel

/-- With a key and more than one store the item with the smallest key over all stores has to be in the last of the stores. -/
theorem C36_from_store_keys {w w' : World} {fuel c ss f k rp fa fd p u cp} (hl : Life w)
    (hc : Calm fuel w (.fromStore c ss f (some k) rp fa fd p u cp)) (h : exec fuel (.fromStore c ss f (some k) rp fa fd p u cp) w = .ok w') :
    (∀ i, Best f k (ss.flatMap fun s => w.inQ (.store s)) i → ∃ s l, ss.getLast? = some s ∧ i ∈ w.inQ (.store s) ∧
      Turnover (.fromStore c ss f (some k) rp fa fd p u cp) (.take i s c :: l) w w' ∧ l.length ≤ 1 ∧
      (w.status c = .current → Refill w s ((w.inQ (.store s)).length - 1) l)) ∧
    (NoMatch w f ss → conts w' = conts w ∧ w'.status c = .requesting ∧ (∀ t ∈ ss, c ∈ w'.inQ (.fromReq t)) ∧
      (w'.comps c).fromFilter = f ∧ ∀ d, d ≠ c → w'.comps d = w.comps d) := by
  obtain ⟨hnd, hne, w2, b, hh⟩ := fromStore_start hl.good h
  have hq : ∀ t, conts w2 t = w.inQ (.store t) := fun t => congrFun b.conts t
  rcases hh with ⟨item, s', w3, h1, h2, h3⟩ | ⟨⟨s', h1⟩, h2, _, h3, h4, h5, h6⟩
  · obtain ⟨hs, hf⟩ := searchStores_found w2 f (some k) ss _ hne h1
    obtain ⟨l, T, hr⟩ := fromStore_turnover hl.good hc h b hs hf h2 h3
    have key := searchStores_key w2 f k ss [] none (ss.headD 0) (by simp [Found])
    rw [h1] at key
    obtain ⟨key, hlast⟩ := key
    have e : ss.flatMap (conts w2) = ss.flatMap fun s => w.inQ (.store s) := by
      congr 1; funext t; exact hq t
    rw [List.nil_append, e] at key
    refine ⟨fun i hi => ?_, fun hno => ?_⟩
    · have := Best.unique key hi
      subst this
      refine ⟨s', l, ?_, ?_, T, hr.short, fun hs => b.refill hs hr⟩
      · rw [List.getLastD_eq_getLast?, List.getLast?_eq_some_getLast hne] at hlast
        rw [List.getLast?_eq_some_getLast hne]; exact congrArg some hlast.symm
      · obtain ⟨a, _, k1, _⟩ := storeLeave_flow b.good h2
        obtain ⟨x, y, e1, _⟩ := k1.split
        rw [← hq, e1]; simp
    · obtain ⟨x, y, e1, e2, _⟩ := (show Best f k _ item from key).split
      have hm : item ∈ ss.flatMap fun s => w.inQ (.store s) := by rw [e1]; simp
      obtain ⟨t, ht, hm⟩ := List.mem_flatMap.1 hm
      have := hno t ht item hm
      rw [e2] at this; cases this
  · refine ⟨fun i hi => ?_, fun _ => ⟨h2, h4, h3, h5, h6⟩⟩
    obtain ⟨x, y, e1, e2, _⟩ := hi.split
    have hm : i ∈ ss.flatMap fun s => w.inQ (.store s) := by rw [e1]; simp
    obtain ⟨t, ht, hm⟩ := List.mem_flatMap.1 hm
    have := searchStores_none w2 f (some k) ss _ h1 t ht i (by rw [hq]; exact hm)
    rw [e2] at this; cases this

/-- The claim "an item put in a store goes to the first waiting requester whose filter accepts it" fails if that item was waiting for room: then
whatever makes room never returns (`fuel` is the limit on the recursion, so Python raises RecursionError). -/
theorem C36_recursion {w : World} {s : StId} {i : CId} {p y : CId} {b : List CId} (hh : w.inQ (.toReq s) = p :: b)
    (hy : (w.comps p).toItem = some y) (hw : ¬ Unwanted w s y) (hr : (((w.inQ (.store s)).length : Nat) : Rat) ≤ (w.queues (.store s)).cap) (fuel : Nat) (w' : World) :
    exec fuel (.storeLeave i s) w ≠ .ok w' := by
  intro h
  obtain ⟨w1, k1, hh1⟩ := storeLeave_exact (show storeLeave fuel i s w = .ok w' from h)
  have hto : w1.inQ (.toReq s) = w.inQ (.toReq s) := by rw [World.inQ, k1.other (by simp)]; rfl
  have hroom : roomIn w1 s = true := by
    rw [roomIn_iff, HasRoom, k1.cap]
    refine lt_of_lt_of_le ?_ hr
    obtain ⟨x, z, e1, e2⟩ := k1.split
    have e3 : w1.inQ (.store s) = x ++ z := by
      have := congrFun e2 s
      rwa [Function.update_self] at this
    rw [e3, show w.inQ (.store s) = x ++ i :: z from e1]
    refine WithTop.coe_lt_coe.2 (Nat.cast_lt.2 ?_)
    simp
  rcases hh1 with ⟨_, h1 | h1⟩ | ⟨m, z, hm, _, _, hz, hwn, _⟩
  · rw [hroom] at h1; cases h1
  · rw [hto, hh] at h1; cases h1
  · have hmc : m.c = p := by
      have : (w1.inQ (.toReq s)).head? = some m.c := by
        unfold headQ at hm; rw [World.inQ, List.head?_map, hm]; rfl
      rw [hto, hh] at this
      simpa using this.symm
    rw [hmc, k1.comps, hy] at hz
    cases hz
    rw [k1.wanted] at hwn
    exact hw (wanted_unwanted hwn)

/-- and this happens: component 1 is waiting for item 100, component 2 is waiting to put item 100 into store 1, which is full. The item in the
store can't be taken out anymore. -/
theorem C36_recursion_counterexample : ∃ w : World, Life w ∧ w.inQ (.store 1) = [101] ∧ FirstOf w 1 100 1 ∧
    ∀ fuel w', exec fuel (.storeLeave 101 1) w ≠ .ok w' := by
  let w0 := execAll 20 (begin 1 ++ [want 1 [1] [100], .storeEnter 101 1 none] ++ begin 2 ++ [bring 2 [1] 100]) depot
  refine ⟨w0, life_all _ (.start fresh_depot) _ (by decide +kernel) (by decide +kernel), by decide +kernel,
    ⟨[], [], by decide +kernel, by decide +kernel, by simp⟩, fun fuel w' => ?_⟩
  refine C36_recursion (p := 2) (y := 100) (b := []) (by decide +kernel) (by decide +kernel) ?_ (by decide +kernel) fuel w'
  intro h
  have := h 1 (by decide +kernel)
  revert this
  decide +kernel

end Verif
