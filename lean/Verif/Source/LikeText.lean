import Verif.Source.LikeSyntax

/-!
# The text of `enum_like`

The `impl` items of `enum_like/src/lib.rs`, copied by `tools/mksource.py`: all but the ones in macros (`MacroRules.lean`) and the empty ones.
-/

namespace EnumVecModel
namespace Source
namespace Like

set_option maxRecDepth 100000

-- enum_like/src/lib.rs, lines 153-163
rust_impl i_unit "unsafe impl EnumLike for () {
    const NUM_VARIANTS: usize = 1;
    #[inline(always)]
    fn to_discr(self) -> usize {
        0
    }
    #[inline(always)]
    fn from_discr(_x: usize) -> Self {
        ()
    }
}"

-- enum_like/src/lib.rs, lines 165-181
rust_impl i_bool "unsafe impl EnumLike for bool {
    const NUM_VARIANTS: usize = 2;
    #[inline(always)]
    fn to_discr(self) -> usize {
        //self as usize
        // Just to be sure
        if self {
            1
        } else {
            0
        }
    }
    #[inline(always)]
    fn from_discr(x: usize) -> Self {
        x != 0
    }
}"

-- enum_like/src/lib.rs, lines 185-201
rust_impl i_option "unsafe impl<T: EnumLike> EnumLike for Option<T> {
    const NUM_VARIANTS: usize = 1 + T::NUM_VARIANTS;
    #[inline(always)]
    fn to_discr(self) -> usize {
        match self {
            None => T::NUM_VARIANTS,
            Some(x) => x.to_discr(),
        }
    }
    #[inline(always)]
    fn from_discr(x: usize) -> Self {
        match x {
            x if x == T::NUM_VARIANTS => None,
            x => Some(T::from_discr(x)),
        }
    }
}"

-- enum_like/src/lib.rs, lines 203-219
rust_impl i_result "unsafe impl<T: EnumLike, S: EnumLike> EnumLike for Result<T, S> {
    const NUM_VARIANTS: usize = T::NUM_VARIANTS + S::NUM_VARIANTS;
    #[inline(always)]
    fn to_discr(self) -> usize {
        match self {
            Ok(x) => x.to_discr(),
            Err(x) => T::NUM_VARIANTS + x.to_discr(),
        }
    }
    #[inline(always)]
    fn from_discr(x: usize) -> Self {
        match x {
            x if x < T::NUM_VARIANTS => Ok(T::from_discr(x)),
            x => Err(S::from_discr(x - T::NUM_VARIANTS)),
        }
    }
}"

-- enum_like/src/lib.rs, lines 221-231
rust_impl i_tuple1 "unsafe impl<T: EnumLike> EnumLike for (T,) {
    const NUM_VARIANTS: usize = T::NUM_VARIANTS;
    #[inline(always)]
    fn to_discr(self) -> usize {
        self.0.to_discr()
    }
    #[inline(always)]
    fn from_discr(x: usize) -> Self {
        (T::from_discr(x),)
    }
}"

-- enum_like/src/lib.rs, lines 235-248
rust_impl i_pair "unsafe impl<T: EnumLike, S: EnumLike> EnumLike for (T, S) {
    const NUM_VARIANTS: usize = T::NUM_VARIANTS * S::NUM_VARIANTS;
    fn to_discr(self) -> usize {
        self.0.to_discr() + self.1.to_discr() * T::NUM_VARIANTS
    }
    fn from_discr(x: usize) -> Self {
        //(T::from_discr(x % T::NUM_VARIANTS), S::from_discr(x / T::NUM_VARIANTS))
        // workarround for #45850
        (
            T::from_discr(x.wrapping_rem(T::NUM_VARIANTS)),
            S::from_discr(x.wrapping_div(T::NUM_VARIANTS)),
        )
    }
}"

-- enum_like/src/lib.rs, lines 342-352
rust_impl i_array0 "unsafe impl<T: EnumLike> EnumLike for [T; 0] {
    const NUM_VARIANTS: usize = <()>::NUM_VARIANTS;
    #[inline(always)]
    fn to_discr(self) -> usize {
        0
    }
    #[inline(always)]
    fn from_discr(_x: usize) -> Self {
        []
    }
}"

-- enum_like/src/lib.rs, lines 442-457
rust_impl i_packed8 "impl<T: EnumLike> PackedU8<T> {
    // If T has more than 2^8 variants, print error at compile time
    const CHECK_LIMIT_VARIANTS: usize = (1 << 8) - T::NUM_VARIANTS;
    /// Packs `T` into 8 bits. If it is not possible, error at compile time.
    pub fn new(a: T) -> Self {
        assert!(Self::CHECK_LIMIT_VARIANTS <= (1 << 8));
        Self {
            discr: T::to_discr(a) as u8,
            _phantom: PhantomData,
        }
    }
    /// Return the packed value
    pub fn get(self) -> T {
        T::from_discr(self.discr as usize)
    }
}"

-- enum_like/src/lib.rs, lines 466-481
rust_impl i_packed16 "impl<T: EnumLike> PackedU16<T> {
    // If T has more than 2^16 variants, print error at compile time
    const CHECK_LIMIT_VARIANTS: usize = (1 << 16) - T::NUM_VARIANTS;
    /// Packs `T` into 16 bits. If it is not possible, error at compile time.
    pub fn new(a: T) -> Self {
        assert!(Self::CHECK_LIMIT_VARIANTS <= (1 << 16));
        Self {
            discr: T::to_discr(a) as u16,
            _phantom: PhantomData,
        }
    }
    /// Return the packed value
    pub fn get(self) -> T {
        T::from_discr(self.discr as usize)
    }
}"

-- enum_like/src/lib.rs, lines 586-594
rust_impl i_values "impl<T: EnumLike> Values<T> {
    fn of() -> Self {
        Self {
            current: 0,
            max: T::NUM_VARIANTS,
            _p: PhantomData,
        }
    }
}"

-- enum_like/src/lib.rs, lines 596-643
rust_impl i_iterator "impl<T: EnumLike> Iterator for Values<T> {
    type Item = T;

    fn next(&mut self) -> Option<Self::Item> {
        if self.current < self.max {
            let x = T::from_discr(self.current);
            self.current += 1;

            Some(x)
        } else {
            None
        }
    }

    fn size_hint(&self) -> (usize, Option<usize>) {
        let remaining_elements = (self.max - self.current) as usize;

        (remaining_elements, Some(remaining_elements))
    }

    fn count(self) -> usize {
        let remaining_elements = (self.max - self.current) as usize;

        remaining_elements
    }

    fn last(mut self) -> Option<Self::Item> {
        if self.max == 0 || self.current == self.max {
            None
        } else {
            self.current = self.max - 1;

            self.next()
        }
    }

    fn nth(&mut self, n: usize) -> Option<Self::Item> {
        if self.current + n < self.max {
            self.current += n;

            self.next()
        } else {
            self.current = self.max;

            None
        }
    }
}"

end Like
end Source
end EnumVecModel
