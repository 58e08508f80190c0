import Verif.Spec.Slices
import Verif.Model.DerivedSlices
import Verif.Proofs.PgpSecret
import Verif.Proofs.PgpSign
import Verif.Proofs.PgpPacket
import Mathlib.Data.List.Forall2

/-!
# Slices: what calls leave unchanged and what they return
-/

namespace Verif.Proofs.Slices

open Verif.Model Verif.Model.Pgp Verif.Model.Slices Verif.Spec.Slices

theorem load_length {m : Mem} {s : Slice} (h : Valid m s) : (load m s).length = s.len := by
  obtain ⟨h1, h2⟩ := h
  rw [load, List.length_take, List.length_drop]; omega

theorem getD_prefix {m m' : Mem} (h : m <+: m') {i : Nat} (hi : i < m.length) :
    contents m' i = contents m i := by
  obtain ⟨t, rfl⟩ := h
  simp [contents, List.getElem?_append_left hi]

/-- A slice without capacity reads as nothing wherever it points. -/
theorem load_empty {m : Mem} {s : Slice} (h : s.len = 0) : load m s = [] := by simp [load, h]

theorem _root_.Verif.Spec.Slices.Valid.mono {m m' : Mem} {s : Slice} (h : Valid m s) (p : m <+: m') : Valid m' s := by
  obtain ⟨h1, h2⟩ := h
  refine ⟨h1, ?_⟩
  by_cases hi : s.arr < m.length
  · rwa [getD_prefix p hi]
  · have h0 : contents m s.arr = [] := by
      simp [contents, List.getElem?_eq_none (Nat.le_of_not_lt hi)]
    rw [h0] at h2
    have : s.off + s.cap = 0 := by simpa using h2
    omega

theorem load_mono {m m' : Mem} {s : Slice} (h : Valid m s) (p : m <+: m') : load m' s = load m s := by
  by_cases hi : s.arr < m.length
  · rw [load, load, getD_prefix p hi]
  · obtain ⟨h1, h2⟩ := h
    have h0 : contents m s.arr = [] := by
      simp [contents, List.getElem?_eq_none (Nat.le_of_not_lt hi)]
    rw [h0] at h2
    have : s.off + s.cap = 0 := by simpa using h2
    rw [load_empty (by omega), load_empty (by omega)]

/-- What a call does: it returns what the function on values returns, up to `R`, and leaves the arrays
`base` unchanged. -/
def Out {α β : Type} (base : Mem) (R : α → Mem → β → Prop) (o : Res α × St) : Res (β × Bytes) → Prop
  | .ok (b, rnd) => ∃ a m, o = (.ok a, ⟨m, rnd⟩) ∧ base <+: m ∧ R a m b
  | .err e => ∃ st, o = (.err e, st) ∧ base <+: st.mem
  | .panic p => ∃ st, o = (.panic p, st) ∧ base <+: st.mem

variable {α β γ δ : Type}

theorem Out.imp {base base' : Mem} {R R' : α → Mem → β → Prop} {o : Res α × St}
    {v : Res (β × Bytes)} (h : Out base R o v) (p : base' <+: base)
    (hR : ∀ a m b, base <+: m → R a m b → R' a m b) : Out base' R' o v := by
  match v, h with
  | .ok (b, rnd), ⟨a, m, h1, h2, h3⟩ => exact ⟨a, m, h1, p.trans h2, hR a m b h2 h3⟩
  | .err e, ⟨st, h1, h2⟩ => exact ⟨st, h1, p.trans h2⟩
  | .panic e, ⟨st, h1, h2⟩ => exact ⟨st, h1, p.trans h2⟩

theorem bind_ok' {x : SM α} {f : α → SM γ} {st st' : St} {a : α} (h : x st = (.ok a, st')) :
    (x >>= f) st = f a st' := by
  show SM.bind x f st = _
  rw [SM.bind, h]

theorem bind_err' {x : SM α} {f : α → SM γ} {st st' : St} {e : Err} (h : x st = (.err e, st')) :
    (x >>= f) st = (.err e, st') := by
  show SM.bind x f st = _
  rw [SM.bind, h]

theorem bind_panic' {x : SM α} {f : α → SM γ} {st st' : St} {e : Panic}
    (h : x st = (.panic e, st')) : (x >>= f) st = (.panic e, st') := by
  show SM.bind x f st = _
  rw [SM.bind, h]

theorem Out.bind {base : Mem} {R : α → Mem → β → Prop} {Q : γ → Mem → δ → Prop} {x : SM α}
    {f : α → SM γ} {v : Res (β × Bytes)} {g : β × Bytes → Res (δ × Bytes)} {st : St}
    (hx : Out base R (x st) v)
    (hf : ∀ a m b rnd, base <+: m → R a m b → Out base Q (f a ⟨m, rnd⟩) (g (b, rnd))) :
    Out base Q ((x >>= f) st) (v >>= g) := by
  match v, hx with
  | .ok (b, rnd), ⟨a, m, h1, h2, h3⟩ => rw [bind_ok' h1]; exact hf a m b rnd h2 h3
  | .err e, ⟨st, h1, h2⟩ => exact ⟨st, bind_err' h1, h2⟩
  | .panic e, ⟨st, h1, h2⟩ => exact ⟨st, bind_panic' h1, h2⟩

theorem Out.step {base : Mem} {R : α → Mem → β → Prop} {Q : γ → Mem → δ → Prop} {x : SM α}
    {f : α → SM γ} {b : β} {rnd : Bytes} {v : Res (δ × Bytes)} {st : St}
    (hx : Out base R (x st) (.ok (b, rnd)))
    (hf : ∀ a m, base <+: m → R a m b → Out base Q (f a ⟨m, rnd⟩) v) :
    Out base Q ((x >>= f) st) v := by
  obtain ⟨a, m, h1, h2, h3⟩ := hx
  rw [bind_ok' h1]; exact hf a m h2 h3

/-- A slice outside the arrays `base` with the given bytes -/
def Own (base : Mem) (s : Slice) (m : Mem) (bs : Bytes) : Prop :=
  Valid m s ∧ load m s = bs ∧ base.length ≤ s.arr

theorem Own.len {base m : Mem} {s : Slice} {bs : Bytes} (h : Own base s m bs) : s.len = bs.length := by
  rw [← h.2.1, load_length h.1]

theorem Own.mono {base m m' : Mem} {s : Slice} {bs : Bytes} (h : Own base s m bs) (p : m <+: m') :
    Own base s m' bs := ⟨h.1.mono p, by rw [load_mono h.1 p, h.2.1], h.2.2⟩

theorem Own.shrink {base base' m : Mem} {s : Slice} {bs : Bytes} (h : Own base s m bs)
    (p : base' <+: base) : Own base' s m bs := ⟨h.1, h.2.1, p.length_le.trans h.2.2⟩

/-- The common case: a call returns a new slice with the given bytes. -/
def Gives (x : SM Slice) (st : St) (v : Res (Bytes × Bytes)) : Prop :=
  Out st.mem (Own st.mem) (x st) v

/-! ## Reading and allocating -/

@[simp] theorem read_bind (s : Slice) (f : Bytes → SM γ) (st : St) :
    (read s >>= f) st = f (load st.mem s) st := rfl

theorem pure_apply (a : α) (st : St) : (pure a : SM α) st = (.ok a, st) := rfl

@[simp] theorem pure_bind' (a : α) (f : α → SM γ) (st : St) : ((pure a : SM α) >>= f) st = f a st := rfl

@[simp] theorem pureRes_bind (a : α) (f : α → SM γ) (st : St) :
    (pureRes (.ok a) >>= f) st = f a st := rfl

theorem bind_assoc' (x : SM α) (f : α → SM β) (g : β → SM γ) (st : St) :
    ((x >>= f) >>= g) st = (x >>= fun a => f a >>= g) st := by
  show SM.bind (SM.bind x f) g st = SM.bind x (fun a => SM.bind (f a) g) st
  simp only [SM.bind]
  rcases x st with ⟨_ | _ | _, _⟩ <;> rfl

theorem prefix_append_one (m : Mem) (a : Arr) : m <+: m ++ [a] := ⟨[a], rfl⟩

theorem own_alloc {base m : Mem} (p : base <+: m) (bs : Bytes) (n : Nat) :
    Own base ⟨m.length, 0, bs.length, bs.length + n⟩ (m ++ [⟨bs ++ List.replicate n 0, 0⟩]) bs := by
  refine ⟨⟨by simp, by simp [contents]⟩, by simp [load, contents], p.length_le⟩

/-- A new slice, with its capacity -/
theorem alloc_spec {base : Mem} {st : St} (p : base <+: st.mem) (bs : Bytes) (n : Nat) :
    Out base (fun s m b => Own st.mem s m b ∧ s.cap = bs.length + n ∧ st.mem <+: m) (alloc bs n st)
      (.ok (bs, st.rnd)) :=
  ⟨_, _, rfl, p.trans (prefix_append_one _ _),
    own_alloc (List.prefix_refl _) bs n, rfl, prefix_append_one _ _⟩

theorem fresh_gives (G : Growth) (bs : Bytes) (st : St) : Gives (fresh G bs) st (.ok (bs, st.rnd)) :=
  (alloc_spec (List.prefix_refl _) bs _).imp (List.prefix_refl _) fun _ _ _ _ h => h.1

theorem alloc_gives (bs : Bytes) (n : Nat) (st : St) : Gives (alloc bs n) st (.ok (bs, st.rnd)) :=
  (alloc_spec (List.prefix_refl _) bs _).imp (List.prefix_refl _) fun _ _ _ _ h => h.1

theorem make_gives (n : Nat) (st : St) :
    Gives (make n) st (.ok (List.replicate n 0, st.rnd)) := alloc_gives _ _ _

theorem Gives.out {base : Mem} {x : SM Slice} {st : St} {v : Res (Bytes × Bytes)} (h : Gives x st v)
    (p : base <+: st.mem) : Out base (Own base) (x st) v :=
  Out.imp h p fun _ _ _ _ o => o.shrink p

/-! ## Writing -/

theorem modify_prefix {base m : Mem} (p : base <+: m) {i : Nat} (hi : base.length ≤ i)
    (f : Arr → Arr) : base <+: m.modify i f := by
  obtain ⟨t, rfl⟩ := p
  refine ⟨t.modify (i - base.length) f, ?_⟩
  apply List.ext_getElem?
  intro j
  by_cases hj : j < base.length
  · rw [List.getElem?_append_left hj, List.getElem?_modify, List.getElem?_append_left hj]
    have : i ≠ j := by omega
    simp [this]
  · rw [List.getElem?_append_right (by omega), List.getElem?_modify, List.getElem?_modify,
      List.getElem?_append_right (by omega)]
    have : (i - base.length = j - base.length) ↔ (i = j) := by omega
    simp [this]

theorem contents_write (m : Mem) (i k : Nat) (d : Bytes) (h : i < m.length ∨ d = []) :
    contents (m.modify i (Arr.write k d)) i =
      (contents m i).take k ++ d ++ (contents m i).drop (k + d.length) := by
  simp only [contents, List.getElem?_modify]
  rcases h with hs | rfl
  · rw [List.getElem?_eq_getElem hs]; simp [Arr.write]
  · cases m[i]? <;> simp [Arr.write]

theorem splice_window (a d : Bytes) (off len i : Nat) (hi : i + d.length ≤ len)
    (hl : off + len ≤ a.length) :
    ((a.take (off + i) ++ d ++ a.drop (off + i + d.length)).drop off).take len =
      ((a.drop off).take len).take i ++ d ++ ((a.drop off).take len).drop (i + d.length) := by
  apply List.ext_getElem?
  intro j
  simp only [List.getElem?_take, List.getElem?_drop, List.getElem?_append, List.length_take,
    List.length_append, List.length_drop]
  have h1 : min (off + i) a.length = off + i := by omega
  have h2 : min i (min len (a.length - off)) = i := by omega
  rw [h1, h2]
  split <;> split
  all_goals (try (split <;> try split)) <;> (try split) <;> try rfl
  all_goals first | omega | (congr 1; omega)

theorem append_window (a d : Bytes) (off len : Nat) (hl : off + len + d.length ≤ a.length) :
    ((a.take (off + len) ++ d ++ a.drop (off + len + d.length)).drop off).take (len + d.length) =
      (a.drop off).take len ++ d := by
  rw [splice_window a d off (len + d.length) len le_rfl (by omega)]
  have h : ((a.drop off).take (len + d.length)).drop (len + d.length) = [] :=
    List.drop_eq_nil_of_le (by rw [List.length_take]; omega)
  rw [List.take_take, Nat.min_eq_left (by omega), h, List.append_nil]

theorem splice_length (a d : Bytes) (i : Nat) (h : i + d.length ≤ a.length) :
    (a.take i ++ d ++ a.drop (i + d.length)).length = a.length := by
  simp; omega

theorem put_spec {base m : Mem} {s : Slice} {bs rnd : Bytes} (p : base <+: m) (h : Own base s m bs)
    (i : Nat) (d : Bytes) (hi : i + d.length ≤ bs.length) :
    Out base (fun _ m' b => Own base s m' b) (put s i d ⟨m, rnd⟩)
      (.ok (bs.take i ++ d ++ bs.drop (i + d.length), rnd)) := by
  obtain ⟨⟨h1, h2⟩, h3, h4⟩ := h
  have hlen : s.len = bs.length := Own.len ⟨⟨h1, h2⟩, h3, h4⟩
  have hin : s.arr < m.length ∨ d = [] := by
    by_cases hs : s.arr < m.length
    · exact .inl hs
    · right
      rw [contents, List.getElem?_eq_none (Nat.le_of_not_lt hs)] at h2
      have : s.off + s.cap = 0 := by simpa using h2
      exact List.length_eq_zero_iff.mp (by omega)
  have key := contents_write m s.arr (s.off + i) d hin
  refine ⟨(), _, by rw [put, if_pos (by omega)], modify_prefix p h4 _, ⟨h1, ?_⟩, ?_, h4⟩
  · show s.off + s.cap ≤ List.length (contents _ s.arr)
    rw [key, splice_length _ _ _ (by omega)]; exact h2
  · show ((contents _ s.arr).drop s.off).take s.len = _
    rw [key, splice_window _ _ _ _ _ (by omega) (by omega)]
    rw [← h3]; rfl

theorem append_spec (G : Growth) {base m : Mem} {s : Slice} {bs rnd : Bytes} (p : base <+: m)
    (h : Own base s m bs) (d : Bytes) :
    Out base (Own base) (append G s d ⟨m, rnd⟩) (.ok (bs ++ d, rnd)) := by
  obtain ⟨⟨h1, h2⟩, h3, h4⟩ := h
  by_cases hc : s.len + d.length ≤ s.cap
  · have hin : s.arr < m.length ∨ d = [] := by
      by_cases hs : s.arr < m.length
      · exact .inl hs
      · right
        rw [contents, List.getElem?_eq_none (Nat.le_of_not_lt hs)] at h2
        have : s.off + s.cap = 0 := by simpa using h2
        exact List.length_eq_zero_iff.mp (by omega)
    have key := contents_write m s.arr (s.off + s.len) d hin
    refine ⟨{ s with len := s.len + d.length }, _, by rw [Slices.append, if_pos hc],
      modify_prefix p h4 _, ⟨hc, ?_⟩, ?_, h4⟩
    · show s.off + s.cap ≤ List.length (contents _ s.arr)
      rw [key, splice_length _ _ _ (by omega)]; exact h2
    · show ((contents _ s.arr).drop s.off).take (s.len + d.length) = _
      rw [key, append_window _ _ _ _ (by omega), ← h3]; rfl
  · refine ⟨_, _, by rw [Slices.append, if_neg hc]; rfl, p.trans (prefix_append_one _ _), ?_⟩
    rw [h3]; exact own_alloc p _ _

/-- Without spare capacity, nothing at all changes. -/
theorem append_full (G : Growth) {base m : Mem} {s : Slice} {bs rnd : Bytes} (p : base <+: m)
    (h : Own base s m bs) (hc : s.cap = s.len) (d : Bytes) :
    Out m (Own base) (append G s d ⟨m, rnd⟩) (.ok (bs ++ d, rnd)) := by
  by_cases hd : d = []
  · obtain ⟨a, m', h1, h2, h3⟩ := append_spec G (rnd := rnd) p h d
    refine ⟨a, m', h1, ?_, h3⟩
    subst hd
    rw [Slices.append, if_pos (by simp [hc])] at h1
    have : m' = m := by
      have := congrArg (fun r => r.2.mem) h1
      rw [← show _ = m' from this]
      apply List.ext_getElem?
      intro j
      rw [List.getElem?_modify]
      cases m[j]? <;> simp [Arr.write]
    rw [this]; exact List.prefix_refl _
  · have : 0 < d.length := List.length_pos_of_ne_nil hd
    refine ⟨_, _, by rw [Slices.append, if_neg (by omega)]; rfl, prefix_append_one _ _, ?_⟩
    rw [h.2.1]; exact own_alloc p _ _

/-! ## mpi.go, packet.go -/

/-- Writing to an array of zeros from left to right -/
theorem put_next {base m : Mem} {s : Slice} {done rnd : Bytes} {k : Nat} (p : base <+: m)
    (h : Own base s m (done ++ List.replicate k 0)) (i : Nat) (d : Bytes) (hi : i = done.length)
    (hk : d.length ≤ k) :
    Out base (fun _ m' b => Own base s m' b) (put s i d ⟨m, rnd⟩)
      (.ok ((done ++ d) ++ List.replicate (k - d.length) 0, rnd)) := by
  subst hi
  have := put_spec (rnd := rnd) p h done.length d (by simp [hk])
  rwa [List.take_left, List.drop_append, List.drop_eq_nil_of_le (by omega), List.nil_append,
    List.drop_replicate, Nat.add_sub_cancel_left] at this

theorem make_zeros (n : Nat) (st : St) :
    Gives (make n) st (.ok ([] ++ List.replicate n 0, st.rnd)) := make_gives n st

theorem encodeMPI_gives (n : Int) (st : St) :
    Gives (Slices.encodeMPI n) st (.ok (Pgp.encodeMPI n, st.rnd)) := by
  have hl : (intBytes n).length = (bitLen n + 7) / 8 := intBytes_length n
  refine Out.step (make_zeros _ st) fun s m p h => ?_
  refine Out.step (put_next p h 0 (beBytes 2 (bitLen n)) rfl (by simp)) fun _ m p h => ?_
  refine Out.step (put_next p h 2 (intBytes n) (by simp) (by simp [hl])) fun _ m p h => ?_
  refine ⟨s, m, rfl, p, ?_⟩
  convert h using 1
  simp [hl, Pgp.encodeMPI]

theorem encodePacket_gives (tag : Byte) (payload : Slice) (st : St) (hv : Valid st.mem payload) :
    Gives (Slices.encodePacket tag payload) st
      (.ok (Pgp.encodePacket tag (load st.mem payload), st.rnd)) := by
  have hl : (load st.mem payload).length = payload.len := load_length hv
  refine Out.step (make_zeros _ st) fun s m p h => ?_
  refine Out.step (put_next p h 0 [0b11000000 ||| tag] rfl (by simp; omega)) fun _ m p h => ?_
  refine Out.step (put_next p h 1 (packetLengthEncode payload.len) (by simp) (by simp; omega))
    fun _ m p h => ?_
  rw [read_bind, load_mono hv p]
  refine Out.step (put_next p h _ (load st.mem payload) (by simp; omega) (by simp [hl]; omega))
    fun _ m p h => ?_
  refine ⟨s, m, rfl, p, ?_⟩
  convert h using 1
  have : 1 + (packetLengthEncode payload.len).length + payload.len - [192 ||| tag].length -
      (packetLengthEncode payload.len).length - (load st.mem payload).length = 0 := by
    simp [hl]; omega
  rw [this, Pgp.encodePacket, hl]
  simp

theorem load_upTo {m : Mem} {s : Slice} {n : Nat} (h : n ≤ s.len) :
    load m { s with len := n } = (load m s).take n := by
  simp [load, List.take_take, Nat.min_eq_left h]

/-! ## s2k.go -/

theorem stringToKey_gives (C : Crypto) (G : Growth) (hashFunc : Byte) (password salt : Slice) (byteCount : Nat)
    (st : St) (base : Mem) (sb : Bytes) (p : base <+: st.mem) (hs : Own base salt st.mem sb)
    (hc : salt.cap = salt.len) :
    Gives (Slices.stringToKey C G hashFunc password salt byteCount) st
      (Pgp.stringToKey C hashFunc (load st.mem password) sb byteCount >>= fun k => .ok (k, st.rnd)) := by
  unfold Slices.stringToKey Pgp.stringToKey
  rw [Gives, read_bind]
  refine Out.step (append_full G p hs hc _) fun pre m p h => ?_
  have hlen : pre.len = (sb ++ load st.mem password).length := h.len
  rw [hlen]
  split
  · exact ⟨_, rfl, p⟩
  · cases hh : hashNew C hashFunc with
    | none => exact ⟨_, rfl, p⟩
    | some f =>
      simp only [read_bind, Res.bind_ok]
      have hw : load m pre = sb ++ load st.mem password := h.2.1
      have hr : load m { pre with len := byteCount % (sb ++ load st.mem password).length } =
          (sb ++ load st.mem password).take (byteCount % (sb ++ load st.mem password).length) := by
        have : byteCount % (sb ++ load st.mem password).length ≤ pre.len := by
          rw [hlen]; exact (Nat.mod_lt _ (by omega)).le
        rw [load_upTo this, hw]
      rw [hw, hr]
      exact (fresh_gives G _ ⟨m, st.rnd⟩).out p

theorem Out.rebase {base m : Mem} {R : α → Mem → β → Prop} {o : Res α × St} {v : Res (β × Bytes)}
    (p : base <+: m) (h : Out m R o v) : Out base R o v := h.imp p fun _ _ _ _ h => h

theorem Gives.keep {base base' : Mem} {x : SM Slice} {st : St} {v : Res (Bytes × Bytes)} (h : Gives x st v)
    (p : base' <+: base) (q : base <+: st.mem) : Out base (Own base') (x st) v :=
  Out.imp h q fun _ _ _ _ o => o.shrink (p.trans q)

theorem make_full (n : Nat) (st : St) :
    Out st.mem (fun s m b => Own st.mem s m b ∧ s.cap = n ∧ s.len = n) (make n st)
      (.ok (List.replicate n 0, st.rnd)) := by
  exact ⟨_, _, rfl, prefix_append_one _ _, own_alloc (List.prefix_refl _) _ _, by simp, by simp⟩

theorem randFill_spec {base m : Mem} {s : Slice} {bs rnd : Bytes} (p : base <+: m) (h : Own base s m bs) :
    Out base (fun _ m' b => Own base s m' b ∧ b.length = bs.length) (randFill s ⟨m, rnd⟩)
      (randRead rnd bs.length) := by
  unfold randFill randRead
  rw [h.len]
  by_cases hr : rnd.length < bs.length
  · simp only [if_pos hr]; exact ⟨_, rfl, p⟩
  · simp only [if_neg hr]
    have hl : (rnd.take bs.length).length = bs.length := by simp; omega
    have := put_spec (rnd := rnd.drop bs.length) p h 0 (rnd.take bs.length) (by omega)
    obtain ⟨a, m', h1, h2, h3⟩ := this
    refine ⟨a, m', h1, h2, ?_, hl⟩
    rw [List.take_zero, List.nil_append, Nat.zero_add, hl, List.drop_eq_nil_of_le le_rfl,
      List.append_nil] at h3
    exact h3

theorem aes_block (C : Crypto) (hC : C.Lawful) {k : Bytes} {E : Bytes → Bytes}
    (h : aesNewCipher C k = .ok E) (b : Bytes) (hb : b.length = 16) : (E b).length = 16 := by
  unfold aesNewCipher at h
  split at h
  · next h16 => cases h; exact hC.phrase.aesEnc_length _ _ h16 hb
  · split at h
    · next h32 => cases h; exact hC.aes256_length _ _ h32 hb
    · exact absurd h (by simp)

theorem encryptS2K_gives (C : Crypto) (hC : C.Lawful) (G : Growth) (hashFunc : Byte)
    (plaintext password : Slice) (st : St) (hp : Valid st.mem plaintext) (hw : Valid st.mem password) :
    Gives (Slices.encryptS2K C G hashFunc plaintext password) st
      (Pgp.encryptS2K C hashFunc (load st.mem plaintext) (load st.mem password) st.rnd) := by
  unfold Slices.encryptS2K Pgp.encryptS2K
  refine Out.step (make_full 8 st) fun salt m p h => ?_
  obtain ⟨h, hcap, hlen⟩ := h
  refine Out.bind (R := fun _ m' b => Own st.mem salt m' b ∧ b.length = 8)
    (by simpa using randFill_spec (rnd := st.rnd) p h) fun _ m saltB rnd p hs => ?_
  refine Out.rebase p ?_
  refine Out.step (make_gives 16 ⟨m, rnd⟩) fun iv m1 p1 h1 => ?_
  refine Out.bind (R := fun _ m' b => Own m iv m' b ∧ b.length = 16)
    (by simpa using randFill_spec (rnd := rnd) p1 h1) fun _ m1 ivB rnd p1 h1 => ?_
  have ps : st.mem <+: m1 := p.trans p1
  have hs1 := hs.1.mono p1
  have hk := stringToKey_gives C G hashFunc password salt (s2kCountDecode s2kCountMaximum) ⟨m1, rnd⟩
    st.mem saltB ps hs1 (by omega)
  rw [show load m1 password = _ from load_mono hw ps] at hk
  cases hkey : Pgp.stringToKey C hashFunc (load st.mem password) saltB
      (s2kCountDecode s2kCountMaximum) with
  | err e =>
    rw [hkey] at hk
    obtain ⟨st', e1, e2⟩ := hk
    exact ⟨st', bind_err' e1, p1.trans e2⟩
  | panic e =>
    rw [hkey] at hk
    obtain ⟨st', e1, e2⟩ := hk
    exact ⟨st', bind_panic' e1, p1.trans e2⟩
  | ok key =>
    rw [hkey] at hk
    refine Out.rebase p1 ?_
    refine Out.step hk fun secretKey m2 p2 h2 => ?_
    simp only [read_bind, Res.bind_ok]
    rw [load_mono hp (ps.trans p2)]
    refine Out.rebase p2 ?_
    refine Out.step (encodeMPI_gives _ ⟨m2, rnd⟩) fun mpi m3 p3 h3 => ?_
    rw [read_bind, h3.2.1]
    refine Out.step (append_spec G p3 h3 _) fun pt m4 p4 h4 => ?_
    simp only [read_bind]
    rw [load_mono h2.1 p4, h2.2.1]
    cases hb : aesNewCipher C key with
    | err e => exact ⟨_, rfl, p4⟩
    | panic e => exact ⟨_, rfl, p4⟩
    | ok E =>
      rw [pureRes_bind, Res.bind_ok]
      refine Out.rebase p4 ?_
      refine Out.step (make_zeros _ ⟨m4, rnd⟩) fun ct m5 p5 h5 => ?_
      have p15 : m1 <+: m5 := p2.trans (p4.trans p5)
      simp only [read_bind]
      rw [load_mono h4.1 p5, h4.2.1, (h1.1.mono p15).2.1]
      have hct : (cfbEncrypt E ivB (Pgp.encodeMPI (setBytes (load st.mem plaintext) : Int) ++
          C.sha1 (Pgp.encodeMPI (setBytes (load st.mem plaintext) : Int)))).length = pt.len := by
        rw [h4.len]
        exact cfb_length E (aes_block C hC hb) _ _ _ h1.2 le_rfl
      refine Out.step (put_next p5 h5 0 _ rfl hct.le) fun _ m6 p6 h6 => ?_
      have p16 : m1 <+: m6 := p2.trans (p4.trans p6)
      have hct' := h6.2.1
      rw [hct, Nat.sub_self, List.replicate_zero, List.append_nil, List.nil_append] at hct'
      cases hz : hashSize hashFunc with
      | err e => exact ⟨_, rfl, p6⟩
      | panic e => exact ⟨_, rfl, p6⟩
      | ok size =>
        rw [pureRes_bind, Res.bind_ok]
        generalize (if size = 16 then Res.ok cipherAlgoAES128 else if size = 24 then .ok cipherAlgoAES192
          else if size = 32 then .ok cipherAlgoAES256 else .err .cipherKeySize) = ra
        cases ra with
        | err e => exact ⟨_, rfl, p6⟩
        | panic e => exact ⟨_, rfl, p6⟩
        | ok algo =>
          show Out m4 _ (fresh G ([stringToKeySpecifierPrefix, algo, stringToKeyUsageIteratedAndSalted,
            hashFunc] ++ load m6 salt ++ [s2kCountMaximum] ++ load m6 iv ++ load m6 ct) ⟨m6, rnd⟩) _
          rw [(hs1.mono p16).2.1, (h1.1.mono p16).2.1, hct']
          exact (fresh_gives G _ ⟨m6, rnd⟩).keep (ps.trans (p2.trans p4)) p6

/-! ## signature.go, sign.go -/

/-- A subpacket in memory -/
def SubR (m : Mem) (sp : SubpacketRef) (v : Subpacket) : Prop :=
  sp.type = v.type ∧ Valid m sp.body ∧ load m sp.body = v.body

def SubsR (m : Mem) (l : List SubpacketRef) (v : List Subpacket) : Prop := List.Forall₂ (SubR m) l v

theorem SubR.mono {m m' : Mem} {sp : SubpacketRef} {v : Subpacket} (h : SubR m sp v) (p : m <+: m') :
    SubR m' sp v := ⟨h.1, h.2.1.mono p, by rw [load_mono h.2.1 p, h.2.2]⟩

theorem SubsR.mono {m m' : Mem} {l : List SubpacketRef} {v : List Subpacket} (h : SubsR m l v)
    (p : m <+: m') : SubsR m' l v := List.Forall₂.imp (fun _ _ h => SubR.mono h p) h

theorem encodeSub_gives (G : Growth) (sp : SubpacketRef) (v : Subpacket) (st : St)
    (h : SubR st.mem sp v) : Gives (sp.encode G) st (.ok (v.encode, st.rnd)) := by
  unfold SubpacketRef.encode Subpacket.encode
  rw [Gives, read_bind, h.2.2, ← load_length h.2.1, h.2.2, h.1]
  exact fresh_gives G _ st

theorem appendSubpackets_spec (G : Growth) {base : Mem} : ∀ (l : List SubpacketRef) (v : List Subpacket)
    (s : Slice) (m : Mem) (bs rnd : Bytes), base <+: m → Own base s m bs → SubsR base l v →
    Out base (Own base) (appendSubpackets G s l ⟨m, rnd⟩)
      (.ok (bs ++ (v.map Subpacket.encode).flatten, rnd))
  | [], _, s, m, bs, rnd, p, h, .nil => by
    rw [List.map_nil, List.flatten_nil, List.append_nil]
    exact ⟨s, m, rfl, p, h⟩
  | sp :: l, _, s, m, bs, rnd, p, h, .cons (b := v) hv hl => by
    show Out base _ ((sp.encode G >>= fun e => read e >>= fun d => append G s d >>= fun s =>
      appendSubpackets G s l) ⟨m, rnd⟩) _
    obtain ⟨e, m1, e1, p1, h1⟩ := encodeSub_gives G sp v ⟨m, rnd⟩ (hv.mono p)
    rw [bind_ok' e1, read_bind, h1.2.1]
    obtain ⟨s', m2, e2, p2, h2⟩ := append_spec G (rnd := rnd) (p.trans p1) (h.mono p1) v.encode
    rw [bind_ok' e2, List.map_cons, List.flatten_cons, ← List.append_assoc]
    exact appendSubpackets_spec G l _ s' m2 _ rnd p2 h2 hl

theorem encodeSubpackets_gives (G : Growth) (l : List SubpacketRef) (v : List Subpacket) (st : St)
    (h : SubsR st.mem l v) :
    Gives (Slices.encodeSubpackets G l) st (.ok (Pgp.encodeSubpackets v, st.rnd)) := by
  refine Out.step (make_gives 2 st) fun s m p hs => ?_
  refine Out.step (appendSubpackets_spec G l v s m _ _ p hs h) fun s m p hs => ?_
  rw [hs.len]
  refine Out.step (put_spec p hs 0 _ (by simp)) fun _ m p hs => ?_
  refine ⟨s, m, rfl, p, ?_⟩
  convert hs using 1
  simp [Pgp.encodeSubpackets]

theorem encodePreimage_gives (G : Growth) (type hashFunction : Byte) (l : List SubpacketRef)
    (sig : Signature) (st : St) (h : SubsR st.mem l sig.hashedSubpackets) (ht : sig.type = type)
    (hh : sig.hashFunction = hashFunction) :
    Gives (Slices.encodePreimage G type hashFunction l) st (.ok (sig.encodePreimage, st.rnd)) := by
  refine Out.step (encodeSubpackets_gives G l _ st h) fun s m p hs => ?_
  rw [read_bind, hs.2.1, Signature.encodePreimage, ht, hh]
  exact (fresh_gives G _ ⟨m, st.rnd⟩).out p

/-- A signature in memory -/
structure SigR (sig : SignatureRef) (m : Mem) (v : Signature) : Prop where
  hashed : SubsR m sig.hashedSubpackets v.hashedSubpackets
  unhashed : SubsR m sig.unhashedSubpackets v.unhashedSubpackets
  type : v.type = sig.type
  hashFunction : v.hashFunction = sig.hashFunction
  valid : Valid m sig.sigHash
  sigHash : load m sig.sigHash = v.sigHash
  preview : 2 ≤ sig.sigHash.len
  r : sig.r = v.r
  s : sig.s = v.s

theorem encodeSig_gives (G : Growth) (sig : SignatureRef) (v : Signature) (st : St)
    (h : SigR sig st.mem v) : Gives (sig.encode G) st (.ok (v.encode, st.rnd)) := by
  unfold SignatureRef.encode
  refine Out.step (encodePreimage_gives G sig.type sig.hashFunction _ v st h.hashed h.type
    h.hashFunction) fun a m p ha => ?_
  rw [read_bind, ha.2.1]
  refine Out.rebase p ?_
  refine Out.step (encodeSubpackets_gives G _ _ ⟨m, st.rnd⟩ (h.unhashed.mono p)) fun b m1 p1 hb => ?_
  rw [read_bind, hb.2.1, upTo, if_pos (h.preview.trans h.valid.1), pure_bind', read_bind,
    load_upTo h.preview, load_mono h.valid (p.trans p1), h.sigHash]
  refine Out.rebase p1 ?_
  refine Out.step (encodeMPI_gives _ ⟨m1, st.rnd⟩) fun c m2 p2 hc => ?_
  rw [read_bind, hc.2.1]
  refine Out.rebase p2 ?_
  refine Out.step (encodeMPI_gives _ ⟨m2, st.rnd⟩) fun d m3 p3 hd => ?_
  rw [read_bind, hd.2.1, h.r, h.s]
  exact (fresh_gives G _ ⟨m3, st.rnd⟩).keep (p.trans (p1.trans p2)) p3

theorem encodeSigPacket_gives (G : Growth) (sig : SignatureRef) (v : Signature) (st : St)
    (h : SigR sig st.mem v) : Gives (sig.encodePacket G) st (.ok (v.encodePacket, st.rnd)) := by
  refine Out.step (encodeSig_gives G sig v st h) fun a m p ha => ?_
  have := encodePacket_gives packetTagSignature a ⟨m, st.rnd⟩ ha.1
  rw [show load m a = _ from ha.2.1] at this
  exact this.out p

theorem hashNew_length (C : Crypto) (hC : C.Lawful) {id : Byte} {h : Bytes → Bytes}
    (e : hashNew C id = some h) (b : Bytes) : 32 ≤ (h b).length := by
  unfold hashNew at e
  split at e
  · cases e; rw [hC.sha256_length]
  · split at e
    · cases e; rw [hC.sha384_length]; omega
    · split at e
      · cases e; rw [hC.sha512_length]; omega
      · exact absurd e (by simp)

/-- A request in memory -/
structure ReqR (req : RequestRef) (m : Mem) (v : SignatureRequest) : Prop where
  valid : Valid m req.signingKeyFingerprint
  fingerprint : load m req.signingKeyFingerprint = v.signingKeyFingerprint
  hashFunction : req.hashFunction = v.hashFunction
  validData : Valid m req.data
  data : load m req.data = v.data
  type : req.type = v.type
  hashed : SubsR m req.hashedSubpackets v.hashedSubpackets
  unhashed : SubsR m req.unhashedSubpackets v.unhashedSubpackets
  time : req.time = v.time

theorem from_valid {m : Mem} {s : Slice} {n : Nat} (h : Valid m s) (hn : n ≤ s.len) :
    Valid m ⟨s.arr, s.off + n, s.len - n, s.cap - n⟩ := by
  obtain ⟨h1, h2⟩ := h
  refine ⟨by show s.len - n ≤ s.cap - n; omega, ?_⟩
  show s.off + n + (s.cap - n) ≤ _
  have : s.off + n + (s.cap - n) = s.off + s.cap := by omega
  rw [this]; exact h2

theorem from_load {m : Mem} {s : Slice} {n : Nat} :
    load m ⟨s.arr, s.off + n, s.len - n, s.cap - n⟩ = (load m s).drop n := by
  simp only [load]
  rw [List.drop_take, List.drop_drop]

theorem sign_gives (C : Crypto) (hC : C.Lawful) (G : Growth) (key : Slice) (req : RequestRef)
    (v : SignatureRequest) (st : St) (hk : Valid st.mem key) (h : ReqR req st.mem v) :
    Out st.mem SigR (Slices.sign C G key req st)
      (Pgp.sign C (load st.mem key) v >>= fun s => .ok (s, st.rnd)) := by
  unfold Slices.sign Pgp.sign
  refine Out.step (make_zeros 4 st) fun ts m p hts => ?_
  refine Out.step (put_next p hts 0 (beBytes 4 (u32 (unix req.time))) rfl (by simp)) fun _ m p hts => ?_
  simp only [beBytes_length, Nat.sub_self, List.replicate_zero, List.append_nil, List.nil_append] at hts
  refine Out.rebase p ?_
  refine Out.step (alloc_gives [keyPacketVersion] 0 ⟨m, st.rnd⟩) fun ver m1 p1 hv => ?_
  rw [read_bind, load_mono h.valid (p.trans p1), h.fingerprint]
  refine Out.step (append_spec G p1 hv _) fun fp m1 p1 hfp => ?_
  have hlen : v.signingKeyFingerprint.length = req.signingKeyFingerprint.len := by
    rw [← h.fingerprint, load_length h.valid]
  have q : st.mem <+: m1 := p.trans p1
  rw [hlen]
  by_cases h8 : req.signingKeyFingerprint.len < 8
  · simp only [if_pos h8]; exact ⟨_, rfl, p1⟩
  · simp only [if_neg h8]
    rw [from', if_pos (by omega), pure_bind', h.hashFunction]
    cases hh : hashNew C v.hashFunction with
    | none => exact ⟨_, rfl, p1⟩
    | some f =>
      have hsub : SubsR m1 ([⟨subpacketTypeIssuerFingerprint, fp⟩, ⟨subpacketTypeCreationTime, ts⟩] ++
          req.hashedSubpackets)
          ([{ type := subpacketTypeIssuerFingerprint, body := keyPacketVersion :: v.signingKeyFingerprint },
            { type := subpacketTypeCreationTime, body := beBytes 4 (u32 (unix v.time)) }] ++
            v.hashedSubpackets) := by
        refine .cons ⟨rfl, hfp.1, hfp.2.1⟩ (.cons ⟨rfl, (hts.mono p1).1, ?_⟩ (h.hashed.mono q))
        rw [(hts.mono p1).2.1, h.time]
      simp only [read_bind, Res.bind_ok]
      rw [load_mono h.validData q, h.data]
      refine Out.rebase p1 ?_
      refine Out.step (encodePreimage_gives G req.type v.hashFunction _ ⟨_,
        [{ type := subpacketTypeIssuer,
           body := v.signingKeyFingerprint.drop (req.signingKeyFingerprint.len - 8) }] ++
          v.unhashedSubpackets, v.type, v.hashFunction, [], 0, 0⟩
        ⟨m1, st.rnd⟩ hsub h.type.symm rfl) fun pre m2 p2 hpre => ?_
      rw [read_bind, hpre.2.1, hpre.len]
      refine Out.rebase p2 ?_
      refine Out.step (fresh_gives G _ ⟨m2, st.rnd⟩) fun sh m3 p3 hsh => ?_
      rw [read_bind, read_bind, hsh.2.1, load_mono hk (q.trans (p2.trans p3))]
      have q3 : m1 <+: m3 := p2.trans p3
      refine ⟨_, _, rfl, p3, ⟨hsub.mono q3, ?_, h.type.symm, rfl, hsh.1, ?_, ?_, rfl, rfl⟩⟩
      · refine .cons ⟨rfl, (from_valid h.valid (by omega)).mono (q.trans q3), ?_⟩
          (h.unhashed.mono (q.trans q3))
        rw [load_mono (from_valid h.valid (by omega)) (q.trans q3), from_load, h.fingerprint]
      · rw [hsh.2.1]
      · show 2 ≤ sh.len
        rw [hsh.len]
        exact le_trans (by omega) (hashNew_length C hC hh _)

/-! ## ecc_key.go -/

theorem _root_.Verif.Spec.Slices.OptR.mono {m m' : Mem} (p : m <+: m') : ∀ {a : Option Slice} {b : Option Bytes}, OptR m a b → OptR m' a b
  | none, none, _ => trivial
  | some s, some b, ⟨h1, h2⟩ => ⟨h1.mono p, by rw [load_mono h1 p, h2]⟩

theorem _root_.Verif.Spec.Slices.ECKeyR.mono {m m' : Mem} {key : ECKeyRef} {v : ECKey} (h : ECKeyR m key v) (p : m <+: m') :
    ECKeyR m' key v where
  priv := ⟨h.priv.1.mono p, by rw [load_mono h.priv.1 p, h.priv.2]⟩
  pub := ⟨h.pub.1.mono p, by rw [load_mono h.pub.1 p, h.pub.2]⟩
  signing := h.signing.mono p
  publicSigning := h.publicSigning.mono p
  creation := h.creation
  algorithm := h.algorithm
  oid := ⟨h.oid.1.mono p, by rw [load_mono h.oid.1 p, h.oid.2]⟩
  extra := h.extra.mono p

theorem readOption_bind {m : Mem} {rnd : Bytes} {f : Bytes → SM γ} :
    ∀ {a : Option Slice} {b : Option Bytes}, OptR m a b →
      (readOption a >>= f) ⟨m, rnd⟩ = f (b.getD []) ⟨m, rnd⟩
  | none, none, _ => rfl
  | some s, some b, ⟨_, h2⟩ => by
    show (read s >>= f) _ = _
    rw [read_bind, h2]; rfl

theorem encodePublic_gives (G : Growth) (key : ECKeyRef) (v : ECKey) (st : St) (h : ECKeyR st.mem key v) :
    Gives (key.encodePublic G) st (.ok (v.encodePublic, st.rnd)) := by
  unfold ECKeyRef.encodePublic
  rw [Gives, read_bind, h.oid.2]
  refine Out.step (alloc_gives _ 0 st) fun a m p ha => ?_
  rw [read_bind, load_mono h.pub.1 p, h.pub.2]
  refine Out.step (append_spec G p ha _) fun b m p hb => ?_
  rw [read_bind, hb.2.1]
  refine Out.step ((encodeMPI_gives _ ⟨m, st.rnd⟩).out p) fun c m p hc => ?_
  rw [read_bind, hc.2.1]
  rw [readOption_bind (h.extra.mono p)]
  have hl : key.curveOID.len = v.curveOID.length := by rw [← h.oid.2, load_length h.oid.1]
  rw [hl, h.creation, h.algorithm]
  exact (fresh_gives G _ ⟨m, st.rnd⟩).out p

theorem encodePrivate_gives (C : Crypto) (hC : C.Lawful) (G : Growth) (key : ECKeyRef) (v : ECKey)
    (password : Slice) (st : St) (h : ECKeyR st.mem key v) (hw : Valid st.mem password) :
    Gives (key.encodePrivate C G password) st (v.encodePrivate C (load st.mem password) st.rnd) := by
  unfold ECKeyRef.encodePrivate ECKey.encodePrivate
  rw [load_length hw]
  refine Out.step (encodePublic_gives G key v st h) fun a m p ha => ?_
  rw [read_bind, ha.2.1]
  split
  · have := encryptS2K_gives C hC G defaultStringToKeyHashFunc key.privateSerialized password ⟨m, st.rnd⟩
      (h.priv.1.mono p) (hw.mono p)
    rw [show load m _ = _ from load_mono h.priv.1 p, h.priv.2, show load m _ = _ from load_mono hw p] at this
    refine Out.bind (this.out p) fun b m e rnd p hb => ?_
    rw [read_bind, hb.2.1]
    exact (fresh_gives G _ ⟨m, rnd⟩).out p
  · rw [read_bind, load_mono h.priv.1 p, h.priv.2]
    refine Out.step ((encodeMPI_gives _ ⟨m, st.rnd⟩).out p) fun b m p hb => ?_
    rw [read_bind, hb.2.1]
    exact (fresh_gives G _ ⟨m, st.rnd⟩).out p

theorem encodePrivateDummy_gives (G : Growth) (key : ECKeyRef) (v : ECKey) (st : St)
    (h : ECKeyR st.mem key v) :
    Gives (key.encodePrivateDummy G) st (.ok (v.encodePrivateDummy, st.rnd)) := by
  refine Out.step (encodePublic_gives G key v st h) fun a m p ha => ?_
  rw [read_bind, ha.2.1]
  exact (fresh_gives G _ ⟨m, st.rnd⟩).out p

theorem fingerprintV4_gives (C : Crypto) (G : Growth) (key : ECKeyRef) (v : ECKey) (st : St)
    (h : ECKeyR st.mem key v) :
    Gives (key.fingerprintV4 C G) st (.ok (v.fingerprintV4 C, st.rnd)) := by
  refine Out.step (encodePublic_gives G key v st h) fun a m p ha => ?_
  rw [read_bind, ha.2.1, ha.len]
  exact (fresh_gives G _ ⟨m, st.rnd⟩).out p

theorem encodePublicPacket_gives (G : Growth) (tag : Byte) (key : ECKeyRef) (v : ECKey) (st : St)
    (h : ECKeyR st.mem key v) :
    Gives (key.encodePublicPacket G tag) st (.ok (Pgp.encodePacket tag v.encodePublic, st.rnd)) := by
  refine Out.step (encodePublic_gives G key v st h) fun a m p ha => ?_
  have := encodePacket_gives tag a ⟨m, st.rnd⟩ ha.1
  rw [show load m a = _ from ha.2.1] at this
  exact this.out p

theorem encodePrivateDummyPacket_gives (G : Growth) (key : ECKeyRef) (v : EdKey) (st : St)
    (h : ECKeyR st.mem key v.base) :
    Gives (key.encodePrivateDummyPacket G) st (.ok (v.encodePrivateDummyPacket, st.rnd)) := by
  refine Out.step (encodePrivateDummy_gives G key v.base st h) fun a m p ha => ?_
  have := encodePacket_gives packetTagSecretKey a ⟨m, st.rnd⟩ ha.1
  rw [show load m a = _ from ha.2.1] at this
  exact this.out p

theorem encodePrivatePacket_gives (C : Crypto) (hC : C.Lawful) (G : Growth) (tag : Byte) (key : ECKeyRef)
    (v : ECKey) (password : Slice) (st : St) (h : ECKeyR st.mem key v) (hw : Valid st.mem password) :
    Gives (key.encodePrivatePacket C G tag password) st
      (v.encodePrivatePacket C tag (load st.mem password) st.rnd) := by
  refine Out.bind (encodePrivate_gives C hC G key v password st h hw) fun a m b rnd p ha => ?_
  have := encodePacket_gives tag a ⟨m, rnd⟩ ha.1
  rw [show load m a = _ from ha.2.1] at this
  exact this.out p

/-! ## Signatures by the master key -/

theorem _root_.Verif.Spec.Slices.EdKeyR.mono {m m' : Mem} {key : EdKeyRef} {v : EdKey} (h : EdKeyR m key v) (p : m <+: m') :
    EdKeyR m' key v where
  base := h.base.mono p
  priv := ⟨h.priv.1.mono p, by rw [load_mono h.priv.1 p, h.priv.2]⟩
  pub := ⟨h.pub.1.mono p, by rw [load_mono h.pub.1 p, h.pub.2]⟩
  creation := h.creation
  expiry := h.expiry

theorem subpacket_gives (type : Byte) (body : Bytes) (st : St) :
    Out st.mem (fun s m v => SubR m s v) (subpacket type body st) (.ok (⟨type, body⟩, st.rnd)) := by
  refine Out.step (alloc_gives body 0 st) fun a m p ha => ?_
  exact ⟨_, _, rfl, p, rfl, ha.1, ha.2.1⟩

theorem expirySubpacket_gives (C : Crypto) (expiry creation : Int) (st : St) :
    Out st.mem (fun s m v => SubsR m s v) (Slices.expirySubpacket C expiry creation st)
      (.ok (Pgp.expirySubpacket C expiry creation, st.rnd)) := by
  unfold Slices.expirySubpacket Pgp.expirySubpacket
  split
  · exact ⟨_, _, rfl, List.prefix_refl _, .nil⟩
  · refine Out.step (make_zeros 4 st) fun ts m p hts => ?_
    refine Out.step (put_next p hts 0 (beBytes 4 (C.secondsU32 (timeSub expiry creation))) rfl (by simp))
      fun _ m p hts => ?_
    simp only [beBytes_length, Nat.sub_self, List.replicate_zero, List.append_nil, List.nil_append] at hts
    exact ⟨_, _, rfl, p, .cons ⟨rfl, hts.1, hts.2.1⟩ .nil⟩

theorem selfCertify_gives (C : Crypto) (hC : C.Lawful) (G : Growth) (key : EdKeyRef) (v : EdKey)
    (userID : UserID) (st : St) (h : EdKeyR st.mem key v) :
    Out st.mem SigR (key.selfCertify C G userID st)
      (v.selfCertify C userID >>= fun s => .ok (s, st.rnd)) := by
  unfold EdKeyRef.selfCertify EdKey.selfCertify
  refine Out.step (encodePublic_gives G key.base v.base st h.base) fun a m p ha => ?_
  refine Out.rebase p ?_
  refine Out.step (fresh_gives G _ ⟨m, st.rnd⟩) fun b m1 p1 hb => ?_
  rw [read_bind, read_bind, (ha.mono p1).2.1, hb.2.1, ha.len, hb.len]
  have q1 := p.trans p1
  refine Out.rebase p1 ?_
  refine Out.step (fresh_gives G _ ⟨m1, st.rnd⟩) fun data m2 p2 hd => ?_
  refine Out.rebase p2 ?_
  refine Out.step (subpacket_gives _ _ ⟨m2, st.rnd⟩) fun s1 m3 p3 h3 => ?_
  refine Out.rebase p3 ?_
  refine Out.step (expirySubpacket_gives C _ _ ⟨m3, st.rnd⟩) fun s2 m4 p4 h4 => ?_
  refine Out.rebase p4 ?_
  refine Out.step (subpacket_gives _ _ ⟨m4, st.rnd⟩) fun s3 m5 p5 h5 => ?_
  refine Out.rebase p5 ?_
  refine Out.step (subpacket_gives _ _ ⟨m5, st.rnd⟩) fun s4 m6 p6 h6 => ?_
  refine Out.rebase p6 ?_
  refine Out.step (subpacket_gives _ _ ⟨m6, st.rnd⟩) fun s5 m7 p7 h7 => ?_
  refine Out.rebase p7 ?_
  refine Out.step (subpacket_gives _ _ ⟨m7, st.rnd⟩) fun s6 m8 p8 h8 => ?_
  refine Out.rebase p8 ?_
  refine Out.step (subpacket_gives _ _ ⟨m8, st.rnd⟩) fun s7 m9 p9 h9 => ?_
  refine Out.rebase p9 ?_
  have q8 : m7 <+: m9 := p8.trans p9
  have q7 : m6 <+: m9 := p7.trans q8
  have q6 : m5 <+: m9 := p6.trans q7
  have q5 : m4 <+: m9 := p5.trans q6
  have q4 : m3 <+: m9 := p4.trans q5
  have q3 : m2 <+: m9 := p3.trans q4
  have q : st.mem <+: m9 := q1.trans (p2.trans q3)
  refine Out.step (fingerprintV4_gives C G key.base v.base ⟨m9, st.rnd⟩ (h.base.mono q)) fun fp m10 p10 hf => ?_
  have := sign_gives C hC G key.priv
    { signingKeyFingerprint := fp
      hashFunction := hashFuncSHA256
      data := data
      type := signatureTypePositiveCertification
      hashedSubpackets := [s1] ++ s2 ++ [s3, s4, s5, s6, s7]
      unhashedSubpackets := []
      time := key.creation }
    { signingKeyFingerprint := v.base.fingerprintV4 C
      hashFunction := hashFuncSHA256
      data := _
      type := signatureTypePositiveCertification
      hashedSubpackets := _
      unhashedSubpackets := []
      time := v.creation }
    ⟨m10, st.rnd⟩ (h.priv.1.mono (q.trans p10))
    ⟨hf.1, hf.2.1, rfl, (hd.mono (q3.trans p10)).1, (hd.mono (q3.trans p10)).2.1, rfl,
      List.rel_append (List.rel_append (.cons (h3.mono (q4.trans p10)) .nil) (h4.mono (q5.trans p10)))
        (.cons (h5.mono (q6.trans p10)) (.cons (h6.mono (q7.trans p10)) (.cons (h7.mono (q8.trans p10))
          (.cons (h8.mono (p9.trans p10)) (.cons (h9.mono p10) .nil))))),
      .nil, h.creation⟩
  rw [show load m10 key.priv = _ from load_mono h.priv.1 (q.trans p10), h.priv.2, h.expiry,
    h.creation] at this
  rw [h.creation]
  exact this.rebase p10

/-- The embedded signature of `bindSubkey`, on values -/
def crossValue (C : Crypto) (base : ECKey) (keyFlags : Byte) (data : Bytes) : Res (List Subpacket) :=
  if keyFlags &&& keyFlagSign ≠ 0 then
    match base.privateSigning with
    | none => .panic .noSigningKey
    | some privateSigning => do
      let embedded ← Pgp.sign C privateSigning {
        signingKeyFingerprint := base.fingerprintV4 C
        hashFunction := hashFuncSHA256
        data := data
        type := signatureTypePrimaryKeyBinding
        hashedSubpackets := []
        unhashedSubpackets := []
        time := base.creation }
      .ok [{ type := subpacketTypeEmbeddedSignature, body := embedded.encode }]
  else .ok []

theorem crossCertify_gives (C : Crypto) (hC : C.Lawful) (G : Growth) (base : ECKeyRef) (v : ECKey)
    (keyFlags : Byte) (data : Slice) (d : Bytes) (st : St) (h : ECKeyR st.mem base v)
    (hd : Valid st.mem data ∧ load st.mem data = d) :
    Out st.mem (fun s m l => SubsR m s l) (crossCertify C G base keyFlags data st)
      (crossValue C v keyFlags d >>= fun l => .ok (l, st.rnd)) := by
  unfold crossCertify crossValue
  split
  · have hs := h.signing
    cases h1 : base.privateSigning <;> cases h2 : v.privateSigning <;> rw [h1, h2] at hs
    · exact ⟨_, rfl, List.prefix_refl _⟩
    · exact hs.elim
    · exact hs.elim
    · rename_i key k
      refine Out.step (fingerprintV4_gives C G base v st h) fun fp m p hf => ?_
      have := sign_gives C hC G key
        { signingKeyFingerprint := fp
          hashFunction := hashFuncSHA256
          data := data
          type := signatureTypePrimaryKeyBinding
          hashedSubpackets := []
          unhashedSubpackets := []
          time := base.creation }
        { signingKeyFingerprint := v.fingerprintV4 C
          hashFunction := hashFuncSHA256
          data := d
          type := signatureTypePrimaryKeyBinding
          hashedSubpackets := []
          unhashedSubpackets := []
          time := v.creation }
        ⟨m, st.rnd⟩ (hs.1.mono p)
        ⟨hf.1, hf.2.1, rfl, hd.1.mono p, (load_mono hd.1 p).trans hd.2, rfl, .nil, .nil, h.creation⟩
      rw [show load m key = _ from load_mono hs.1 p, hs.2] at this
      refine Out.rebase p ?_
      dsimp only
      revert this
      generalize Pgp.sign C k _ = sv
      intro this
      cases sv with
      | err e =>
        obtain ⟨st', e1, e2⟩ := this
        exact ⟨st', bind_err' e1, e2⟩
      | panic e =>
        obtain ⟨st', e1, e2⟩ := this
        exact ⟨st', bind_panic' e1, e2⟩
      | ok sv =>
        refine Out.step this fun sg m1 p1 hsg => ?_
        refine Out.step ((encodeSig_gives G sg sv ⟨m1, st.rnd⟩ hsg).out p1) fun b m2 p2 hb => ?_
        exact ⟨_, _, rfl, p2, .cons ⟨rfl, hb.1, hb.2.1⟩ .nil⟩
  · exact ⟨_, _, rfl, List.prefix_refl _, .nil⟩

theorem bindSubkey_gives (C : Crypto) (hC : C.Lawful) (G : Growth) (key : EdKeyRef) (v : EdKey)
    (base : ECKeyRef) (b : ECKey) (keyFlags : Byte) (expiry : Int) (st : St) (h : EdKeyR st.mem key v)
    (hb : ECKeyR st.mem base b) :
    Out st.mem SigR (key.bindSubkey C G base keyFlags expiry st)
      (v.bindSubkey C b keyFlags expiry >>= fun s => .ok (s, st.rnd)) := by
  unfold EdKeyRef.bindSubkey
  refine Out.step (encodePublic_gives G key.base v.base st h.base) fun pa m p ha => ?_
  refine Out.rebase p ?_
  refine Out.step (encodePublic_gives G base b ⟨m, st.rnd⟩ (hb.mono p)) fun pb m1 p1 hpb => ?_
  rw [read_bind, read_bind, (ha.mono p1).2.1, hpb.2.1, ha.len, hpb.len]
  have q1 := p.trans p1
  refine Out.rebase p1 ?_
  refine Out.step (fresh_gives G _ ⟨m1, st.rnd⟩) fun data m2 p2 hd => ?_
  refine Out.rebase p2 ?_
  refine Out.step (subpacket_gives _ _ ⟨m2, st.rnd⟩) fun s1 m3 p3 h3 => ?_
  refine Out.rebase p3 ?_
  refine Out.step (expirySubpacket_gives C _ _ ⟨m3, st.rnd⟩) fun s2 m4 p4 h4 => ?_
  refine Out.rebase p4 ?_
  have q4 : st.mem <+: m4 := q1.trans (p2.trans (p3.trans p4))
  have hd4 := hd.mono (p3.trans p4)
  have hx := crossCertify_gives C hC G base b keyFlags data _ ⟨m4, st.rnd⟩ (hb.mono q4) ⟨hd4.1, hd4.2.1⟩
  have hv : (v.bindSubkey C b keyFlags expiry >>= fun s => (.ok (s, st.rnd) : Res (Signature × Bytes))) =
      ((crossValue C b keyFlags ([publicKeyPrefixV4] ++ beBytes 2 v.base.encodePublic.length ++
        v.base.encodePublic ++ [publicKeyPrefixV4] ++ beBytes 2 b.encodePublic.length ++ b.encodePublic) >>=
          fun l => (.ok (l, st.rnd) : Res (List Subpacket × Bytes))) >>= fun l =>
      Pgp.sign C v.priv {
        signingKeyFingerprint := v.base.fingerprintV4 C
        hashFunction := hashFuncSHA256
        data := [publicKeyPrefixV4] ++ beBytes 2 v.base.encodePublic.length ++
          v.base.encodePublic ++ [publicKeyPrefixV4] ++ beBytes 2 b.encodePublic.length ++ b.encodePublic
        type := signatureTypeSubkeyBinding
        hashedSubpackets := [{ type := subpacketTypeKeyFlags, body := [keyFlags] }] ++
          Pgp.expirySubpacket C expiry b.creation
        unhashedSubpackets := l.1
        time := b.creation } >>= fun s => .ok (s, l.2)) := by
    show ((crossValue C b keyFlags _ >>= _) >>= _) = _
    cases crossValue C b keyFlags ([publicKeyPrefixV4] ++ beBytes 2 v.base.encodePublic.length ++
        v.base.encodePublic ++ [publicKeyPrefixV4] ++ beBytes 2 b.encodePublic.length ++ b.encodePublic) <;> rfl
  rw [hv]
  refine Out.bind hx fun us m5 l rnd p5 hus => ?_
  refine Out.rebase p5 ?_
  refine Out.step (fingerprintV4_gives C G key.base v.base ⟨m5, rnd⟩ (h.base.mono (q4.trans p5)))
    fun fp m6 p6 hf => ?_
  have q6 : m4 <+: m6 := p5.trans p6
  have := sign_gives C hC G key.priv
    { signingKeyFingerprint := fp
      hashFunction := hashFuncSHA256
      data := data
      type := signatureTypeSubkeyBinding
      hashedSubpackets := [s1] ++ s2
      unhashedSubpackets := us
      time := base.creation }
    { signingKeyFingerprint := v.base.fingerprintV4 C
      hashFunction := hashFuncSHA256
      data := _
      type := signatureTypeSubkeyBinding
      hashedSubpackets := _
      unhashedSubpackets := l
      time := b.creation }
    ⟨m6, rnd⟩ (h.priv.1.mono (q4.trans q6))
    ⟨hf.1, hf.2.1, rfl, (hd4.mono q6).1, (hd4.mono q6).2.1, rfl,
      List.rel_append (.cons (h3.mono (p4.trans q6)) .nil) (h4.mono q6), hus.mono p6, hb.creation⟩
  rw [show load m6 key.priv = _ from load_mono h.priv.1 (q4.trans q6), h.priv.2, hb.creation] at this
  rw [hb.creation]
  exact this.rebase p6

/-! ## key_set.go -/

theorem encodeSubkeyPackets_gives (C : Crypto) (hC : C.Lawful) (G : Growth) (key : EdKeyRef) (v : EdKey)
    (base : ECKeyRef) (b : ECKey) (keyFlags : Byte) (expiry : Int) (password : Slice) (st : St)
    (h : EdKeyR st.mem key v) (hb : ECKeyR st.mem base b) (hw : Valid st.mem password) :
    Gives (Slices.encodeSubkeyPackets C G key base keyFlags expiry password) st
      (Pgp.encodeSubkeyPackets C v b keyFlags expiry (load st.mem password) st.rnd) := by
  unfold Slices.encodeSubkeyPackets Pgp.encodeSubkeyPackets
  refine Out.bind (encodePrivatePacket_gives C hC G _ base b password st hb hw) fun pk m bs rnd p hp => ?_
  have hs := bindSubkey_gives C hC G key v base b keyFlags expiry ⟨m, rnd⟩ (h.mono p) (hb.mono p)
  revert hs
  show Out _ _ _ _ → Out st.mem _ _ (v.bindSubkey C b keyFlags expiry >>= fun s =>
    .ok (bs ++ s.encodePacket, rnd))
  generalize v.bindSubkey C b keyFlags expiry = sv
  intro hs
  cases sv with
  | err e =>
    obtain ⟨st', e1, e2⟩ := hs
    exact ⟨st', bind_err' e1, p.trans e2⟩
  | panic e =>
    obtain ⟨st', e1, e2⟩ := hs
    exact ⟨st', bind_panic' e1, p.trans e2⟩
  | ok sv =>
    obtain ⟨sg, m1, e1, p1, h1⟩ := hs
    rw [bind_ok' e1]
    obtain ⟨sp, m2, e2, p2, h2⟩ := encodeSigPacket_gives G sg sv ⟨m1, rnd⟩ h1
    rw [bind_ok' e2, read_bind, h2.2.1]
    have q : m <+: m2 := p1.trans p2
    exact append_spec G (p.trans q) (hp.mono q) _

theorem _root_.Verif.Spec.Slices.CurveKeyR.mono {m m' : Mem} {key : CurveKeyRef} {v : CurveKey} (h : CurveKeyR m key v) (p : m <+: m') :
    CurveKeyR m' key v where
  base := h.base.mono p
  priv := ⟨h.priv.1.mono p, by rw [load_mono h.priv.1 p, h.priv.2]⟩
  pub := ⟨h.pub.1.mono p, by rw [load_mono h.pub.1 p, h.pub.2]⟩
  creation := h.creation
  expiry := h.expiry
  kdf := h.kdf

theorem Rel.mono {A B : Type} {R R' : A → B → Prop} (hR : ∀ a b, R a b → R' a b) {a : Option A} {b : Option B}
    (h : Option.Rel R a b) : Option.Rel R' a b := by
  cases h with
  | some h => exact .some (hR _ _ h)
  | none => exact .none

theorem _root_.Verif.Spec.Slices.KeySetR.mono {m m' : Mem} {ks : KeySetRef} {v : KeySet} (h : KeySetR m ks v) (p : m <+: m') :
    KeySetR m' ks v where
  userID := h.userID
  master := h.master.mono p
  encryption := Rel.mono (fun _ _ h => h.mono p) h.encryption
  authentication := Rel.mono (fun _ _ h => h.mono p) h.authentication
  signing := Rel.mono (fun _ _ h => h.mono p) h.signing

theorem encryption_gives (C : Crypto) (hC : C.Lawful) (G : Growth) (ks : KeySetRef) (v : KeySet)
    (password : Slice) (st : St) (h : KeySetR st.mem ks v) (hw : Valid st.mem password) :
    Gives (encodeGroup C G ks.masterKey (ks.encryptionSubkey.map fun k => (k.base, k.expiry))
      (keyFlagEncryptCommunications ||| keyFlagEncryptStorage) password) st
      (v.encodeEncryption C (load st.mem password) st.rnd) := by
  unfold KeySet.encodeEncryption
  have he := h.encryption
  generalize ks.encryptionSubkey = x at he ⊢
  generalize v.encryptionSubkey = y at he ⊢
  cases he with
  | none => exact alloc_gives [] 0 st
  | some hk =>
    rename_i a b
    have := encodeSubkeyPackets_gives C hC G ks.masterKey v.masterKey a.base b.base
      (keyFlagEncryptCommunications ||| keyFlagEncryptStorage) a.expiry password st h.master hk.base hw
    rw [hk.expiry] at this
    rw [Option.map_some, hk.expiry]
    exact this

theorem authentication_gives (C : Crypto) (hC : C.Lawful) (G : Growth) (ks : KeySetRef) (v : KeySet)
    (password : Slice) (st : St) (h : KeySetR st.mem ks v) (hw : Valid st.mem password) :
    Gives (encodeGroup C G ks.masterKey (ks.authenticationSubkey.map fun k => (k.base, k.expiry))
      keyFlagAuthenticate password) st (v.encodeAuthentication C (load st.mem password) st.rnd) := by
  unfold KeySet.encodeAuthentication
  have he := h.authentication
  generalize ks.authenticationSubkey = x at he ⊢
  generalize v.authenticationSubkey = y at he ⊢
  cases he with
  | none => exact alloc_gives [] 0 st
  | some hk =>
    rename_i a b
    have := encodeSubkeyPackets_gives C hC G ks.masterKey v.masterKey a.base b.base
      keyFlagAuthenticate a.expiry password st h.master hk.base hw
    rw [hk.expiry] at this
    rw [Option.map_some, hk.expiry]
    exact this

theorem signing_gives (C : Crypto) (hC : C.Lawful) (G : Growth) (ks : KeySetRef) (v : KeySet)
    (password : Slice) (st : St) (h : KeySetR st.mem ks v) (hw : Valid st.mem password) :
    Gives (encodeGroup C G ks.masterKey (ks.signingSubkey.map fun k => (k.base, k.expiry))
      keyFlagSign password) st (v.encodeSigning C (load st.mem password) st.rnd) := by
  unfold KeySet.encodeSigning
  have he := h.signing
  generalize ks.signingSubkey = x at he ⊢
  generalize v.signingSubkey = y at he ⊢
  cases he with
  | none => exact alloc_gives [] 0 st
  | some hk =>
    rename_i a b
    have := encodeSubkeyPackets_gives C hC G ks.masterKey v.masterKey a.base b.base
      keyFlagSign a.expiry password st h.master hk.base hw
    rw [hk.expiry] at this
    rw [Option.map_some, hk.expiry]
    exact this

theorem all_gives (C : Crypto) (hC : C.Lawful) (G : Growth) (ks : KeySetRef) (v : KeySet)
    (password : Slice) (st : St) (h : KeySetR st.mem ks v) (hw : Valid st.mem password) :
    Gives (ks.encodeAllSubkeyPackets C G password) st
      (v.encodeAllSubkeyPackets C (load st.mem password) st.rnd) := by
  unfold KeySetRef.encodeAllSubkeyPackets KeySet.encodeAllSubkeyPackets
  refine Out.bind (encryption_gives C hC G ks v password st h hw) fun g0 m0 b0 rnd p0 h0 => ?_
  refine Out.rebase p0 ?_
  have e1 := authentication_gives C hC G ks v password ⟨m0, rnd⟩ (h.mono p0) (hw.mono p0)
  rw [show load m0 password = _ from load_mono hw p0] at e1
  refine Out.bind e1 fun g1 m1 b1 rnd p1 h1 => ?_
  have q1 := p0.trans p1
  refine Out.rebase p1 ?_
  have e2 := signing_gives C hC G ks v password ⟨m1, rnd⟩ (h.mono q1) (hw.mono q1)
  rw [show load m1 password = _ from load_mono hw q1] at e2
  refine Out.bind e2 fun g2 m2 b2 rnd p2 h2 => ?_
  simp only [read_bind]
  rw [load_mono h.master.priv.1 (q1.trans p2), h.master.priv.2, (h0.mono (p1.trans p2)).2.1,
    (h1.mono p2).2.1, h2.2.1]
  show Out m1 _ _ (shuffleLoop (C.shuffleDraw (shuffleSeed C v.masterKey.priv)) 2 [b0, b1, b2] >>= _)
  generalize shuffleLoop (C.shuffleDraw (shuffleSeed C v.masterKey.priv)) 2 [b0, b1, b2] = r
  cases r with
  | err e => exact ⟨_, rfl, p2⟩
  | panic e => exact ⟨_, rfl, p2⟩
  | ok l => exact (fresh_gives G _ ⟨m2, rnd⟩).keep q1 p2

theorem selfCertification_gives (C : Crypto) (hC : C.Lawful) (G : Growth) (ks : KeySetRef) (v : KeySet)
    (st : St) (h : KeySetR st.mem ks v) :
    Gives (ks.encodeSelfCertification C G) st
      (v.encodeSelfCertification C >>= fun b => .ok (b, st.rnd)) := by
  unfold KeySetRef.encodeSelfCertification KeySet.encodeSelfCertification
  have hs := selfCertify_gives C hC G ks.masterKey v.masterKey ks.userID st h.master
  rw [h.userID] at hs ⊢
  revert hs
  generalize v.masterKey.selfCertify C v.userID = sv
  intro hs
  cases sv with
  | err e =>
    obtain ⟨st', e1, e2⟩ := hs
    exact ⟨st', bind_err' e1, e2⟩
  | panic e =>
    obtain ⟨st', e1, e2⟩ := hs
    exact ⟨st', bind_panic' e1, e2⟩
  | ok sv =>
    refine Out.step hs fun sg m p hsg => ?_
    exact (encodeSigPacket_gives G sg sv ⟨m, st.rnd⟩ hsg).out p

theorem userID_gives (G : Growth) (id : UserID) (st : St) :
    Gives (encodeUserID G id) st (.ok (id.encodePacket, st.rnd)) := by
  refine Out.step (fresh_gives G id.encode st) fun a m p ha => ?_
  have := encodePacket_gives packetTagUserID a ⟨m, st.rnd⟩ ha.1
  rw [show load m a = _ from ha.2.1] at this
  exact this.out p

theorem packets_gives (C : Crypto) (hC : C.Lawful) (G : Growth) (ks : KeySetRef) (v : KeySet)
    (password : Slice) (st : St) (h : KeySetR st.mem ks v) (hw : Valid st.mem password) :
    Gives (ks.encodePackets C G password) st (v.encodePackets C (load st.mem password) st.rnd) := by
  unfold KeySetRef.encodePackets KeySet.encodePackets
  refine Out.bind (encodePrivatePacket_gives C hC G _ ks.masterKey.base v.masterKey.base password st
    h.master.base hw) fun a m0 b0 rnd p0 h0 => ?_
  rw [read_bind, h0.2.1]
  refine Out.rebase p0 ?_
  refine Out.step (userID_gives G ks.userID ⟨m0, rnd⟩) fun a m1 p1 h1 => ?_
  rw [read_bind, h1.2.1]
  refine Out.rebase p1 ?_
  have q1 := p0.trans p1
  have hc := selfCertification_gives C hC G ks v ⟨m1, rnd⟩ (h.mono q1)
  revert hc
  show Out _ _ _ _ → Out m1 _ _ (v.encodeSelfCertification C >>= fun cert =>
    v.encodeAllSubkeyPackets C (load st.mem password) rnd >>= fun x =>
      .ok (b0 ++ v.userID.encodePacket ++ cert ++ x.1, x.2))
  generalize v.encodeSelfCertification C = cv
  intro hc
  cases cv with
  | err e =>
    obtain ⟨st', e1, e2⟩ := hc
    exact ⟨st', bind_err' e1, e2⟩
  | panic e =>
    obtain ⟨st', e1, e2⟩ := hc
    exact ⟨st', bind_panic' e1, e2⟩
  | ok cert =>
    refine Out.step hc fun c m2 p2 h2 => ?_
    rw [read_bind, h2.2.1]
    refine Out.rebase p2 ?_
    have q2 := q1.trans p2
    have ha := all_gives C hC G ks v password ⟨m2, rnd⟩ (h.mono q2) (hw.mono q2)
    rw [show load m2 password = _ from load_mono hw q2] at ha
    refine Out.bind ha fun d m3 bs rnd p3 h3 => ?_
    rw [read_bind, h3.2.1, h.userID]
    exact (fresh_gives G _ ⟨m3, rnd⟩).keep q2 p3

theorem subkeyPackets_gives (C : Crypto) (hC : C.Lawful) (G : Growth) (ks : KeySetRef) (v : KeySet)
    (password : Slice) (withSelfCert : Bool) (st : St) (h : KeySetR st.mem ks v) (hw : Valid st.mem password) :
    Gives (ks.encodeSubkeyPackets C G password withSelfCert) st
      (v.encodeSubkeyPackets C (load st.mem password) withSelfCert st.rnd) := by
  unfold KeySetRef.encodeSubkeyPackets KeySet.encodeSubkeyPackets
  have hd := encodePrivateDummyPacket_gives G ks.masterKey.base v.masterKey st h.master.base
  refine Out.step hd fun a m0 p0 h0 => ?_
  rw [read_bind, h0.2.1]
  refine Out.rebase p0 ?_
  refine Out.step (userID_gives G ks.userID ⟨m0, st.rnd⟩) fun a m1 p1 h1 => ?_
  rw [read_bind, h1.2.1]
  refine Out.rebase p1 ?_
  have q1 := p0.trans p1
  have hrest : ∀ (cert : Bytes) (m2 : Mem), m1 <+: m2 →
      Out m1 (Own st.mem) ((ks.encodeAllSubkeyPackets C G password >>= fun s => read s >>= fun b =>
        fresh G (v.masterKey.encodePrivateDummyPacket ++ ks.userID.encodePacket ++ cert ++ b)) ⟨m2, st.rnd⟩)
        (v.encodeAllSubkeyPackets C (load st.mem password) st.rnd >>= fun x =>
          .ok (v.masterKey.encodePrivateDummyPacket ++ v.userID.encodePacket ++ cert ++ x.1, x.2)) := by
    intro cert m2 p2
    refine Out.rebase p2 ?_
    have q2 := q1.trans p2
    have ha := all_gives C hC G ks v password ⟨m2, st.rnd⟩ (h.mono q2) (hw.mono q2)
    rw [show load m2 password = _ from load_mono hw q2] at ha
    refine Out.bind ha fun d m3 bs rnd p3 h3 => ?_
    rw [read_bind, h3.2.1, h.userID]
    exact (fresh_gives G _ ⟨m3, rnd⟩).keep q2 p3
  cases withSelfCert with
  | false => exact hrest [] m1 (List.prefix_refl _)
  | true =>
    have hc := selfCertification_gives C hC G ks v ⟨m1, st.rnd⟩ (h.mono q1)
    revert hc
    show Out _ _ _ _ → Out m1 _ (((ks.encodeSelfCertification C G >>= read) >>= fun cert =>
      ks.encodeAllSubkeyPackets C G password >>= fun s => read s >>= fun b =>
        fresh G (v.masterKey.encodePrivateDummyPacket ++ ks.userID.encodePacket ++ cert ++ b)) ⟨m1, st.rnd⟩)
      (v.encodeSelfCertification C >>= fun cert =>
        v.encodeAllSubkeyPackets C (load st.mem password) st.rnd >>= fun x =>
          .ok (v.masterKey.encodePrivateDummyPacket ++ v.userID.encodePacket ++ cert ++ x.1, x.2))
    rw [bind_assoc']
    generalize v.encodeSelfCertification C = cv
    intro hc
    cases cv with
    | err e =>
      obtain ⟨st', e1, e2⟩ := hc
      exact ⟨st', bind_err' e1, e2⟩
    | panic e =>
      obtain ⟨st', e1, e2⟩ := hc
      exact ⟨st', bind_panic' e1, e2⟩
    | ok cert =>
      refine Out.step hc fun c m2 p2 h2 => ?_
      rw [read_bind, h2.2.1]
      exact hrest cert m2 p2

/-! ## The two constructors -/

/-- The package variables are in their places. -/
def Globals (m : Mem) : Prop := initial <+: m

theorem newEdKey_gives (C : Crypto) (hC : C.Lawful) (seed : Slice) (creation expiry : Int) (st : St)
    (hg : Globals st.mem) (hs : Valid st.mem seed) :
    Out st.mem (fun k m v => EdKeyR m k v ∧ st.mem.length ≤ k.priv.arr ∧ st.mem.length ≤ k.pub.arr)
      (Slices.newEdKey C seed creation expiry st)
      (Pgp.newEdKey C (load st.mem seed) creation expiry >>= fun k => .ok (k, st.rnd)) := by
  unfold Slices.newEdKey Pgp.newEdKey
  have hl := load_length hs
  rw [hl]
  split
  · exact ⟨_, rfl, List.prefix_refl _⟩
  · next h32 =>
    have h32 : seed.len = 32 := by simpa using h32
    rw [read_bind, Res.bind_ok]
    refine Out.step (alloc_spec (List.prefix_refl _) _ 0) fun a m p ha => ?_
    obtain ⟨ha, hcap, -⟩ := ha
    rw [read_bind, ha.2.1]
    refine Out.rebase p ?_
    refine Out.step (alloc_gives _ 0 ⟨m, st.rnd⟩) fun b m1 p1 hb => ?_
    have q := p.trans p1
    have ha1 := ha.mono p1
    have hlen : a.len = 64 := by
      rw [ha.len, List.length_append, hl, h32, hC.ed25519Pub_length _ (by omega)]
    rw [upTo, if_pos (by have := ha.1.1; omega), pure_bind']
    have hpub : (load st.mem seed ++ C.ed25519Pub (load st.mem seed)).drop 32 =
        C.ed25519Pub (load st.mem seed) := by
      rw [List.drop_append, List.drop_eq_nil_of_le (by omega), List.nil_append]
      simp [hl, h32]
    rw [hpub] at hb
    have hoid : Valid m1 oidED25519Ref ∧ load m1 oidED25519Ref = Pgp.oidED25519 := by
      have h0 : Valid initial oidED25519Ref := ⟨by decide, by decide⟩
      exact ⟨h0.mono (hg.trans q), by rw [load_mono h0 (hg.trans q)]; decide⟩
    refine ⟨_, _, rfl, p1, ⟨⟨⟨?_, ?_⟩, ⟨hb.1, hb.2.1⟩, ⟨ha1.1, ha1.2.1⟩, ⟨hb.1, hb.2.1⟩, rfl, rfl, hoid,
      trivial⟩, ⟨ha1.1, ha1.2.1⟩, ⟨hb.1, hb.2.1⟩, rfl, rfl⟩, ha.2.2, ?_⟩
    · exact ⟨by show 32 ≤ a.cap; have := ha.1.1; omega, ha1.1.2⟩
    · rw [load_upTo (by omega), ha1.2.1]
    · exact le_trans p.length_le hb.2.2

theorem update_spec {base m : Mem} {s : Slice} {bs rnd : Bytes} (p : base <+: m) (h : Own base s m bs)
    (i : Nat) (f : Byte → Byte) (hi : i < bs.length) :
    Out base (fun _ m' b => Own base s m' b) (update s i f ⟨m, rnd⟩) (.ok (bs.modify i f, rnd)) := by
  unfold update
  rw [read_bind, h.2.1, List.getElem?_eq_getElem hi]
  have := put_spec (rnd := rnd) p h i [f bs[i]] (by simp; omega)
  convert this using 3
  rw [List.modify_eq_take_cons_drop hi]
  simp

theorem reverseLoop_spec {base : Mem} {s o : Slice} {bs : Bytes} (ho : Valid base o)
    (hbs : load base o = bs) : ∀ (n : Nat) (m : Mem) (rnd done : Bytes), n ≤ bs.length → base <+: m →
      Own base s m (List.replicate n 0 ++ done) → done = (bs.take (bs.length - n)).reverse →
      Out base (fun _ m' b => Own base s m' b) (Slices.reverseLoop s o bs.length n ⟨m, rnd⟩)
        (.ok (bs.reverse, rnd))
  | 0, m, rnd, done, _, p, h, hd => by
    refine ⟨(), m, rfl, p, ?_⟩
    rw [hd] at h
    simpa using h
  | n + 1, m, rnd, done, hn, p, h, hd => by
    rw [Slices.reverseLoop, read_bind, load_mono ho p, hbs,
      List.getElem?_eq_getElem (show bs.length - (n + 1) < bs.length by omega)]
    have hi : bs.length - (bs.length - (n + 1)) - 1 = n := by omega
    rw [hi]
    refine Out.step (put_spec p h n [bs[bs.length - (n + 1)]] (by simp)) fun _ m p h => ?_
    refine reverseLoop_spec ho hbs n m rnd
      ([bs[bs.length - (n + 1)]] ++ done) (by omega) p ?_ ?_
    · convert h using 1
      have h1 : (List.replicate (n + 1) (0 : Byte) ++ done).take n = List.replicate n 0 := by
        rw [List.take_append_of_le_length (by simp), List.take_replicate, Nat.min_eq_left (by omega)]
      have h2 : (List.replicate (n + 1) (0 : Byte) ++ done).drop (n + 1) = done :=
        List.drop_left' (by simp)
      rw [h1, List.append_assoc]
      congr 2
      exact h2.symm
    · rw [hd]
      have e1 : bs.length - n = (bs.length - (n + 1)) + 1 := by omega
      rw [e1, List.take_add_one, List.getElem?_eq_getElem (show bs.length - (n + 1) < bs.length by omega),
        Option.toList_some, List.reverse_append, List.reverse_singleton]

theorem newCurveKey_gives (C : Crypto) (G : Growth) (seed : Slice) (creation expiry : Int)
    (kdf : Option KeyDerivationParameters) (st : St) (hg : Globals st.mem) (hs : Valid st.mem seed) :
    Out st.mem (fun k m v => CurveKeyR m k v ∧ st.mem.length ≤ k.priv.arr ∧ st.mem.length ≤ k.pub.arr)
      (Slices.newCurveKey C G seed creation expiry kdf st)
      (Pgp.newCurveKey C (load st.mem seed) creation expiry kdf >>= fun k => .ok (k, st.rnd)) := by
  unfold Slices.newCurveKey Pgp.newCurveKey
  have hl := load_length hs
  rw [hl]
  split
  · exact ⟨_, rfl, List.prefix_refl _⟩
  · next h32 =>
    have h32 : seed.len = 32 := by simpa using h32
    refine Out.step (alloc_gives [] 0 st) fun a m p ha => ?_
    rw [read_bind, load_mono hs p]
    refine Out.step (append_spec G p ha _) fun a m p ha => ?_
    rw [List.nil_append] at ha
    refine Out.step (update_spec p ha 0 _ (by omega)) fun _ m p ha => ?_
    refine Out.step (update_spec p ha 31 _ (by simp; omega)) fun _ m p ha => ?_
    refine Out.step (update_spec p ha 31 _ (by simp; omega)) fun _ m p ha => ?_
    rw [read_bind, load_mono hs p]
    refine Out.rebase p ?_
    refine Out.step (alloc_gives _ 0 ⟨m, st.rnd⟩) fun b m1 p1 hb => ?_
    refine Out.rebase p1 ?_
    have ha1 := ha.mono p1
    generalize hcl : List.modify (List.modify (List.modify (load st.mem seed) 0 _) 31 _) 31 _ = cl at ha ha1
    have hrev : Gives (Slices.reverse a) ⟨m1, st.rnd⟩ (.ok (cl.reverse, st.rnd)) := by
      unfold Slices.reverse
      refine Out.step (make_gives _ ⟨m1, st.rnd⟩) fun r m2 p2 hr => ?_
      rw [ha.len] at hr ⊢
      obtain ⟨u, m3, e3, p3, h3⟩ := reverseLoop_spec (s := r) ha1.1 ha1.2.1 cl.length m2 st.rnd []
        le_rfl p2 (by simpa using hr) (by simp)
      rw [bind_ok' e3]
      exact ⟨r, m3, rfl, p3, h3⟩
    refine Out.step hrev fun r m2 p2 hr => ?_
    refine Out.rebase p2 ?_
    refine Out.step (alloc_gives _ 0 ⟨m2, st.rnd⟩) fun x m3 p3 hx => ?_
    have q : st.mem <+: m3 := p.trans (p1.trans (p2.trans p3))
    have hoid : Valid m3 oidCurve25519Ref ∧ load m3 oidCurve25519Ref = Pgp.oidCurve25519 := by
      have h0 : Valid initial oidCurve25519Ref := ⟨by decide, by decide⟩
      exact ⟨h0.mono (hg.trans q), by rw [load_mono h0 (hg.trans q)]; decide⟩
    have ha3 := ha1.mono (p2.trans p3)
    have hb3 := hb.mono (p2.trans p3)
    have hr3 := hr.mono p3
    refine ⟨_, _, rfl, p3, ⟨⟨⟨hr3.1, ?_⟩, ⟨hb3.1, hb3.2.1⟩, trivial, trivial, rfl, rfl, hoid,
      ⟨hx.1, hx.2.1⟩⟩, ⟨ha3.1, ?_⟩, ⟨hb3.1, hb3.2.1⟩, rfl, rfl, rfl⟩, ha.2.2, ?_⟩
    · rw [hr3.2.1, ← hcl]
      exact (reverse_eq _).symm
    · rw [ha3.2.1, ← hcl]
    · exact le_trans p.length_le hb.2.2


/-! ## derive.go -/

theorem expandInfo_gives (t : Bytes) (index : UInt16) (st : St) :
    Gives (expandInfo t index) st (.ok (keyExpandInfoSubkey t index, st.rnd)) := by
  refine Out.step (make_zeros _ st) fun s m p h => ?_
  refine Out.step (put_next p h 0 _ rfl (by simp)) fun _ m p h => ?_
  refine Out.step (put_next p h _ (beBytes 2 index.toNat) (by simp) (by simp)) fun _ m p h => ?_
  refine ⟨s, m, rfl, p, ?_⟩
  convert h using 1
  simp [keyExpandInfoSubkey]

theorem hkdfExpand_gives (C : Crypto) (hC : C.Lawful) (root info : Slice) (rb ib : Bytes) (size : Nat)
    (st : St) (hr : Holds st.mem root rb) (hi : Holds st.mem info ib) :
    Gives (Slices.hkdfExpand C root size info) st (.ok (C.hkdfExpand rb ib size, st.rnd)) := by
  refine Out.step (make_zeros _ st) fun s m p h => ?_
  rw [read_bind, read_bind, load_mono hr.1 p, hr.2, load_mono hi.1 p, hi.2]
  refine Out.step (put_next p h 0 _ rfl (by rw [hC.hkdf_length])) fun _ m p h => ?_
  refine ⟨s, m, rfl, p, ?_⟩
  convert h using 1
  simp [hC.hkdf_length]

theorem Holds.mono {m m' : Mem} {s : Slice} {b : Bytes} (h : Holds m s b) (p : m <+: m') : Holds m' s b :=
  ⟨h.1.mono p, by rw [load_mono h.1 p, h.2]⟩

theorem deriveEd_gives (C : Crypto) (hC : C.Lawful) (root : Slice) (rb : Bytes) (opts : KeyOptions)
    (t : Bytes) (index : UInt16) (creation expiry : Int) (st : St) (hg : Globals st.mem)
    (hr : Holds st.mem root rb) :
    Out st.mem (fun k m v => Option.Rel (EdKeyR m) k v) (deriveEd C root opts t index creation expiry st)
      ((if opts.subkeyEnabled t then do
          let k ← Pgp.newEdKey C (C.hkdfExpand rb (keyExpandInfoSubkey t index) 32) creation expiry
          .ok (some k)
        else .ok none : Res (Option EdKey)) >>= fun k => .ok (k, st.rnd)) := by
  unfold deriveEd
  split
  · refine Out.step (expandInfo_gives t index st) fun i m p hi => ?_
    refine Out.rebase p ?_
    refine Out.step (hkdfExpand_gives C hC root i rb _ 32 ⟨m, st.rnd⟩ (Holds.mono hr p) ⟨hi.1, hi.2.1⟩)
      fun s m1 p1 hs => ?_
    have q := p.trans p1
    have hk := newEdKey_gives C hC s creation expiry ⟨m1, st.rnd⟩ (hg.trans q) hs.1
    rw [show load m1 s = _ from hs.2.1] at hk
    refine Out.rebase p1 ?_
    revert hk
    generalize Pgp.newEdKey C _ creation expiry = kv
    intro hk
    cases kv with
    | err e =>
      obtain ⟨st', e1, e2⟩ := hk
      exact ⟨st', bind_err' e1, e2⟩
    | panic e =>
      obtain ⟨st', e1, e2⟩ := hk
      exact ⟨st', bind_panic' e1, e2⟩
    | ok kv =>
      refine Out.step hk fun k m2 p2 h2 => ?_
      exact ⟨_, _, rfl, p2, .some h2.1⟩
  · exact ⟨_, _, rfl, List.prefix_refl _, .none⟩

theorem deriveCurve_gives (C : Crypto) (hC : C.Lawful) (G : Growth) (root : Slice) (rb : Bytes)
    (opts : KeyOptions) (creation expiry : Int) (st : St) (hg : Globals st.mem)
    (hr : Holds st.mem root rb) :
    Out st.mem (fun k m v => Option.Rel (CurveKeyR m) k v) (deriveCurve C G root opts creation expiry st)
      ((if opts.subkeyEnabled subkeyTypeEncryption then do
          let k ← Pgp.newCurveKey C (C.hkdfExpand rb
            (keyExpandInfoSubkey subkeyTypeEncryption opts.encryptionSubkeyIndex) 32) creation expiry none
          .ok (some k)
        else .ok none : Res (Option CurveKey)) >>= fun k => .ok (k, st.rnd)) := by
  unfold deriveCurve
  split
  · refine Out.step (expandInfo_gives _ _ st) fun i m p hi => ?_
    refine Out.rebase p ?_
    refine Out.step (hkdfExpand_gives C hC root i rb _ 32 ⟨m, st.rnd⟩ (Holds.mono hr p) ⟨hi.1, hi.2.1⟩)
      fun s m1 p1 hs => ?_
    have q := p.trans p1
    have hk := newCurveKey_gives C G s creation expiry none ⟨m1, st.rnd⟩ (hg.trans q) hs.1
    rw [show load m1 s = _ from hs.2.1] at hk
    refine Out.rebase p1 ?_
    revert hk
    generalize Pgp.newCurveKey C _ creation expiry none = kv
    intro hk
    cases kv with
    | err e =>
      obtain ⟨st', e1, e2⟩ := hk
      exact ⟨st', bind_err' e1, e2⟩
    | panic e =>
      obtain ⟨st', e1, e2⟩ := hk
      exact ⟨st', bind_panic' e1, e2⟩
    | ok kv =>
      refine Out.step hk fun k m2 p2 h2 => ?_
      exact ⟨_, _, rfl, p2, .some h2.1⟩
  · exact ⟨_, _, rfl, List.prefix_refl _, .none⟩

/-- A step whose value does not touch the random source -/
theorem Out.stepRes {base : Mem} {R : α → Mem → β → Prop} {Q : γ → Mem → δ → Prop} {x : SM α}
    {f : α → SM γ} {w : Res β} {g : β → Res δ} {st : St}
    (hx : Out base R (x st) (w >>= fun b => .ok (b, st.rnd)))
    (hf : ∀ a m b, base <+: m → R a m b → Out base Q (f a ⟨m, st.rnd⟩) (g b >>= fun d => .ok (d, st.rnd))) :
    Out base Q ((x >>= f) st) ((w >>= g) >>= fun d => .ok (d, st.rnd)) := by
  cases w with
  | err e =>
    obtain ⟨st', e1, e2⟩ := hx
    exact ⟨st', bind_err' e1, e2⟩
  | panic e =>
    obtain ⟨st', e1, e2⟩ := hx
    exact ⟨st', bind_panic' e1, e2⟩
  | ok b =>
    obtain ⟨a, m, h1, h2, h3⟩ := hx
    rw [bind_ok' h1]; exact hf a m b h2 h3

theorem derive_gives (C : Crypto) (hC : C.Lawful) (G : Growth) (seed : Seed) (creation : Int)
    (opts : KeyOptions) (st : St) (hg : Globals st.mem) :
    Out st.mem (fun ks m v => KeySetR m ks v) (Slices.derivePGPKeySet C G seed creation opts st)
      (Model.derivePGPKeySet C seed creation opts >>= fun ks => .ok (ks, st.rnd)) := by
  unfold Slices.derivePGPKeySet Model.derivePGPKeySet
  refine Out.stepRes (R := fun a _ b => a = b) ?_ fun rb m rb' p hrb => ?_
  · generalize rootKey C seed creation = r
    cases r with
    | ok a => exact ⟨_, _, rfl, List.prefix_refl _, rfl⟩
    | err e => exact ⟨_, rfl, List.prefix_refl _⟩
    | panic e => exact ⟨_, rfl, List.prefix_refl _⟩
  subst hrb
  refine Out.rebase p ?_
  refine Out.step (alloc_gives rb 0 ⟨m, st.rnd⟩) fun root m1 p1 hroot => ?_
  refine Out.rebase p1 ?_
  refine Out.step (fresh_gives G _ ⟨m1, st.rnd⟩) fun info m2 p2 hi => ?_
  have hr2 : Holds m2 root rb := ⟨(hroot.mono p2).1, (hroot.mono p2).2.1⟩
  refine Out.rebase p2 ?_
  refine Out.step (hkdfExpand_gives C hC root info rb _ 32 ⟨m2, st.rnd⟩ hr2 ⟨hi.1, hi.2.1⟩) fun s m3 p3 hs => ?_
  have q3 : st.mem <+: m3 := p.trans (p1.trans (p2.trans p3))
  have hk := newEdKey_gives C hC s creation (expiryOf creation opts.ttl) ⟨m3, st.rnd⟩ (hg.trans q3) hs.1
  rw [show load m3 s = _ from hs.2.1] at hk
  refine Out.rebase p3 ?_
  refine Out.stepRes (st := ⟨m3, st.rnd⟩) hk fun k m4 kv p4 h4 => ?_
  refine Out.rebase p4 ?_
  have hr4 := Holds.mono hr2 (p3.trans p4)
  have q4 := q3.trans p4
  refine Out.stepRes (st := ⟨m4, st.rnd⟩) (deriveCurve_gives C hC G root rb opts creation _ ⟨m4, st.rnd⟩
    (hg.trans q4) hr4) fun e m5 ev p5 h5 => ?_
  refine Out.rebase p5 ?_
  have q5 := q4.trans p5
  refine Out.stepRes (st := ⟨m5, st.rnd⟩) (deriveEd_gives C hC root rb opts _ _ creation _ ⟨m5, st.rnd⟩
    (hg.trans q5) (Holds.mono hr4 p5)) fun a m6 av p6 h6 => ?_
  refine Out.rebase p6 ?_
  have q6 := q5.trans p6
  refine Out.stepRes (st := ⟨m6, st.rnd⟩) (deriveEd_gives C hC root rb opts _ _ creation _ ⟨m6, st.rnd⟩
    (hg.trans q6) (Holds.mono hr4 (p5.trans p6))) fun g m7 gv p7 h7 => ?_
  refine ⟨_, _, rfl, p7, rfl, h4.1.mono (p5.trans (p6.trans p7)), ?_, ?_, h7⟩
  · exact Rel.mono (fun _ _ h => h.mono (p6.trans p7)) h5
  · exact Rel.mono (fun _ _ h => h.mono p7) h6

end Verif.Proofs.Slices
