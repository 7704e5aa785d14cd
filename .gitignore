seeded/.survivors
