import Verif.Source.QuoteEngine

/-!
# The text of the templates of the derive macro

The arguments of `quote!` and `parse_quote!` in `enum_like_derive/src/lib.rs`, copied by `tools/mksource.py`: all of them. `q_f_k` is number `k` in the function `f`.
-/

namespace EnumVecModel
namespace Quote

set_option maxRecDepth 100000

-- enum_like_derive/src/lib.rs, line 64
rust_quote q_unit_0 "0usize"

-- enum_like_derive/src/lib.rs, line 107
rust_quote q_from_fields_0 "#i"

-- enum_like_derive/src/lib.rs, lines 129-131
rust_quote q_print_to_discr_0 "
                #parent::#name => #offset,
            "

-- enum_like_derive/src/lib.rs, line 136
rust_quote q_print_to_discr_1 "#offset + #range_high"

-- enum_like_derive/src/lib.rs, lines 148-154
rust_quote q_print_to_discr_2 "
                #parent::#name {
                    #(
                        #field_names: #xfield_names,
                    )*
                } => #to_discr_0,
            "

-- enum_like_derive/src/lib.rs, lines 161-163
rust_quote q_print_from_discr_0 "
                #offset => #parent::#name,
            "

-- enum_like_derive/src/lib.rs, line 169
rust_quote q_print_from_discr_1 "x - #offset - (#range_high)"

-- enum_like_derive/src/lib.rs, lines 171-177
rust_quote q_print_from_discr_2 "
                x if x >= (#offset + #range_high)
                    && x < (#offset + #range_high_next) =>
                #parent::#name {
                    #from_discr_0
                },
            "

-- enum_like_derive/src/lib.rs, line 184
rust_quote q_print_num_variants_0 "1"

-- enum_like_derive/src/lib.rs, lines 196-198
rust_quote q_print_next_range_high_0 "
                #range_high + #n
            "

-- enum_like_derive/src/lib.rs, line 224
rust_quote q_all_variants_of_0 "0usize"

-- enum_like_derive/src/lib.rs, lines 281-285
rust_quote q_generate_rusty_enum_code_0 "
        #(
            #enum_count_s +
        )* 0usize
    "

-- enum_like_derive/src/lib.rs, lines 290-307
rust_quote q_generate_rusty_enum_code_1 "
            const NUM_VARIANTS: usize = #enum_count;
            fn from_discr(value: usize) -> Self {
                match value {
                    #(
                        #match_arm_from
                    )*
                    _ => unreachable!()
                }
            }
            fn to_discr(self) -> usize {
                match self {
                    #(
                        #match_arm_to
                    )*
                }
            }
        "

-- enum_like_derive/src/lib.rs, lines 331-348
rust_quote q_generate_c_enum_code_0 "
            const NUM_VARIANTS: usize = #enum_count;
            fn from_discr(value: usize) -> Self {
                match value {
                    #(
                        #counter_a => #repeat_name_a::#variant_a,
                    )*
                    _ => unreachable!()
                }
            }
            fn to_discr(self) -> usize {
                match self {
                    #(
                        #repeat_name_b::#variant_b => #counter_b,
                    )*
                }
            }
        "

-- enum_like_derive/src/lib.rs, line 377
rust_quote q_generate_unit_struct_impl_0 ""

-- enum_like_derive/src/lib.rs, line 377
rust_quote q_generate_unit_struct_impl_1 "{}"

-- enum_like_derive/src/lib.rs, lines 382-390
rust_quote q_generate_unit_struct_impl_2 "
            const NUM_VARIANTS: usize = 1usize;
            fn from_discr(_value: usize) -> Self {
                #name #hack
            }
            fn to_discr(self) -> usize {
                0usize
            }
        "

-- enum_like_derive/src/lib.rs, line 400
rust_quote q_generate_struct_many_elem_0 "value"

-- enum_like_derive/src/lib.rs, line 402
rust_quote q_generate_struct_many_elem_1 "0usize"

-- enum_like_derive/src/lib.rs, lines 409-419
rust_quote q_generate_struct_many_elem_2 "
            const NUM_VARIANTS: usize = #total_num_variants;
            fn from_discr(value: usize) -> Self {
                Self {
                    #from_discr_0
                }
            }
            fn to_discr(self) -> usize {
                #to_discr_0
            }
        "

-- enum_like_derive/src/lib.rs, line 425
rust_quote q_total_num_variants_product_0 ""

-- enum_like_derive/src/lib.rs, line 440
rust_quote q_num_variants_product_0 "1usize"

-- enum_like_derive/src/lib.rs, line 445
rust_quote q_num_variants_product_1 " <#type_n1 as ::enum_like::EnumLike>::NUM_VARIANTS "

-- enum_like_derive/src/lib.rs, lines 452-454
rust_quote q_num_variants_product_2 "
            #old_last_p * <#type_n1 as ::enum_like::EnumLike>::NUM_VARIANTS
        "

-- enum_like_derive/src/lib.rs, lines 478-480
rust_quote q_from_discr_body_0 "
                .wrapping_rem(<#tn as ::enum_like::EnumLike>::NUM_VARIANTS)
            "

-- enum_like_derive/src/lib.rs, line 482
rust_quote q_from_discr_body_1 ""

-- enum_like_derive/src/lib.rs, lines 494-500
rust_quote q_from_discr_body_2 "
    #(
            #field_names: <#type_names as ::enum_like::EnumLike>::from_discr(
                ( #value_r ).wrapping_div( #product ) #rem
            ),
    )*
        "

-- enum_like_derive/src/lib.rs, lines 515-521
rust_quote q_to_discr_body_0 "
            ( #offset )
        #(
                + #product *
            <#type_names as ::enum_like::EnumLike>::to_discr(#xfield_names)
        )*
            "

-- enum_like_derive/src/lib.rs, lines 524-530
rust_quote q_to_discr_body_1 "
            ( #offset )
        #(
                + #product *
            <#type_names as ::enum_like::EnumLike>::to_discr(self.#field_names)
        )*
            "

-- enum_like_derive/src/lib.rs, line 553
rust_quote q_generate_struct_with_fields_0 "#i"

-- enum_like_derive/src/lib.rs, line 584
rust_quote q_add_trait_bounds_0 "::enum_like::EnumLike"

-- enum_like_derive/src/lib.rs, lines 596-601
rust_quote q_impl_enum_like_0 "
        unsafe impl #impl_generics ::enum_like::EnumLike for #name #ty_generics
        #where_clause {
            #body
        }
    "

end Quote
end EnumVecModel
