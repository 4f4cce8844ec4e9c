import Verif.Source.MacroEngine

/-!
# The text of the macros

The definitions and calls of the macros of `enum_like/src/lib.rs` and the definition of `enum_vec!` (`enum_vec/src/lib.rs`), copied by `tools/mksource.py`: all of them.
-/

namespace EnumVecModel
namespace Source
namespace Mac

set_option maxRecDepth 100000

-- enum_like/src/lib.rs, lines 255-284
rust_macro m_tuple_impls "macro_rules! tuple_impls {
    {
        ($idx0:tt) -> $T0:ident
        ($idx1:tt) -> $T1:ident
    } => {
        // Done, impls for (A, B) are hardcoded
    };
    {
        ($last_idx:tt) -> $last_T:ident
        $(($idx:tt) -> $T:ident)+
    } => {

unsafe impl<$($T:EnumLike,)+ $last_T:EnumLike> EnumLike for ($($T,)+ $last_T) {
    const NUM_VARIANTS: usize = <(($($T,)+), $last_T)>::NUM_VARIANTS;
    fn to_discr(self) -> usize {
        (reverse_idx_b!(self [$($idx)+]), self.$last_idx).to_discr()
    }
    fn from_discr(x: usize) -> Self {
        let a = <(($($T,)+), $last_T)>::from_discr(x);
        //((a.0).0, (a.0).1, a.1)
        reverse_idx_a!(a [$($idx)+])
    }
}
        // Recursion!
        tuple_impls! {
            $(($idx) -> $T)+
        }

    };
}"

-- enum_like/src/lib.rs, lines 287-294
rust_macro m_reverse_idx_b "macro_rules! reverse_idx_b {
    ($a:ident [] $($reversed:tt)*) => {
        ($($a.$reversed,)+)  // base case
    };
    ($a:ident [$first:tt $($rest:tt)*] $($reversed:tt)*) => {
        reverse_idx_b!($a [$($rest)*] $first $($reversed)*)  // recursion
    };
}"

-- enum_like/src/lib.rs, lines 296-303
rust_macro m_reverse_idx_a "macro_rules! reverse_idx_a {
    ($a:ident [] $($reversed:tt)*) => {
        ($(($a.0).$reversed,)+ $a.1)  // base case
    };
    ($a:ident [$first:tt $($rest:tt)*] $($reversed:tt)*) => {
        reverse_idx_a!($a [$($rest)*] $first $($reversed)*)  // recursion
    };
}"

-- enum_like/src/lib.rs, lines 305-338
rust_call c_tuple_impls "tuple_impls! {
    (31) -> A31
    (30) -> A30
    (29) -> A29
    (28) -> A28
    (27) -> A27
    (26) -> A26
    (25) -> A25
    (24) -> A24
    (23) -> A23
    (22) -> A22
    (21) -> A21
    (20) -> A20
    (19) -> A19
    (18) -> A18
    (17) -> A17
    (16) -> A16
    (15) -> A15
    (14) -> A14
    (13) -> A13
    (12) -> A12
    (11) -> A11
    (10) -> A10
    (9) -> A9
    (8) -> A8
    (7) -> A7
    (6) -> A6
    (5) -> A5
    (4) -> A4
    (3) -> A3
    (2) -> A2
    (1) -> A1
    (0) -> A0
}"

-- enum_like/src/lib.rs, lines 355-388
rust_macro m_array_impls "macro_rules! array_impls {
    {
        ($idx0:tt) -> $T0:ident
    } => {
        // Done, impls for [T; 0] are hardcoded
    };
    {
        ($N:tt) -> $T0:ident
        $(($idx:tt) -> $T:ident)+
    } => {
unsafe impl<$T0: EnumLike> EnumLike for [$T0; $N] {
    const NUM_VARIANTS: usize = <($($T,)+)>::NUM_VARIANTS;
    fn to_discr(mut self) -> usize {
        use std::mem;
        unsafe {
        (
            $(
                mem::replace(&mut self[$N - 1 - $idx], mem::uninitialized()),
            )+
        ).to_discr()
        }
    }
    fn from_discr(x: usize) -> Self {
        let t = <($($T,)+)>::from_discr(x);
        reverse_idx_c!(t [$($idx)+] )
    }
}
        // Recursion!
        array_impls! {
            $(($idx) -> $T)+
        }

    };
}"

-- enum_like/src/lib.rs, lines 390-397
rust_macro m_reverse_idx_c "macro_rules! reverse_idx_c {
    ($a:ident [] $($reversed:tt)*) => {
        [$($a.$reversed,)+]  // base case
    };
    ($a:ident [$first:tt $($rest:tt)*] $($reversed:tt)*) => {
        reverse_idx_c!($a [$($rest)*] $first $($reversed)*)  // recursion
    };
}"

-- enum_like/src/lib.rs, lines 399-433
rust_call c_array_impls "array_impls! {
    (32) -> A
    (31) -> A
    (30) -> A
    (29) -> A
    (28) -> A
    (27) -> A
    (26) -> A
    (25) -> A
    (24) -> A
    (23) -> A
    (22) -> A
    (21) -> A
    (20) -> A
    (19) -> A
    (18) -> A
    (17) -> A
    (16) -> A
    (15) -> A
    (14) -> A
    (13) -> A
    (12) -> A
    (11) -> A
    (10) -> A
    (9) -> A
    (8) -> A
    (7) -> A
    (6) -> A
    (5) -> A
    (4) -> A
    (3) -> A
    (2) -> A
    (1) -> A
    (0) -> A
}"

-- enum_vec/src/lib.rs, lines 29-36
rust_macro m_enum_vec "macro_rules! enum_vec {
    ($elem:expr; $n:expr) => ({
        EnumVec::from_elem($elem, $n)
    });
    ($($x:expr),*$(,)*) => ({
        EnumVec::from_slice(&[$($x),*])
    });
}"

end Mac
end Source
end EnumVecModel
